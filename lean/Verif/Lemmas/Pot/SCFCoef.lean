import Verif.Model.Pot.SCFCoef
import Verif.Lemmas.Pot.SCFMass
import Verif.Util.GaussQuad

set_option autoImplicit false

/-! # Lemmas for the coefficients of SCFPotential -/

noncomputable section
open Real Finset Polynomial intervalIntegral MeasureTheory

namespace Verif.SCF

/-- Nodes inside of the interval and exactness for polynomials of degree below `2 K`: Gauss-Legendre quadrature. -/
structure Rule.Gauss (r : Rule) (K : ℕ) : Prop where
  inside : ∀ i < K, -1 < r.x i ∧ r.x i < 1
  exact : ∀ p : ℝ[X], p.natDegree < 2 * K → ∑ i ∈ range K, r.w i * p.eval (r.x i) = ∫ x in (-1 : ℝ)..1, p.eval x

theorem Rule.map_one (r : Rule) : r.map (-1) 1 = r := by
  cases r
  simp only [Rule.map, Rule.mk.injEq]
  constructor <;> (funext i; norm_num)

theorem quad2_eq (leg : ℕ → Rule) (K₁ K₂ : ℕ) (f : ℝ → ℝ → ℝ) :
    quad2 leg K₁ K₂ (-1) 1 (-1) 1 f
      = ∑ i ∈ range K₁, ∑ j ∈ range K₂, (leg K₁).w i * (leg K₂).w j * f ((leg K₁).x i) ((leg K₂).x j) := by
  simp only [quad2, Rule.map_one]

variable {a : ℝ}

theorem xiToR_pos (ha : 0 < a) {ξ : ℝ} (h1 : -1 < ξ) (h2 : ξ < 1) : 0 < xiToR ξ a := by
  have : 0 < 1 + ξ := by linarith
  have : 0 < 1 - ξ := by linarith
  unfold xiToR
  positivity

theorem xi_xiToR (ha : 0 < a) {ξ : ℝ} (h2 : ξ < 1) : (xiToR ξ a - a) / (xiToR ξ a + a) = ξ := by
  have : 1 - ξ ≠ 0 := by linarith
  have e : xiToR ξ a + a = 2 * a / (1 - ξ) := by
    unfold xiToR
    field_simp
    ring
  rw [e]
  unfold xiToR
  field_simp
  ring

theorem half_int (l : ℕ) : 2 * (l : ℝ) + 3 / 2 = ((2 * l + 1 : ℕ) : ℝ) + 1 / 2 := by
  push_cast
  ring

/-- The radial part of the integrand is a polynomial. -/
def radP (n n' l l' : ℕ) : ℝ[X] :=
  (1 - X ^ 2) ^ (l + l' + 1) * gegP (2 * (l' : ℝ) + 3 / 2) n' * gegP (2 * (l : ℝ) + 3 / 2) n

theorem rad_eq (ha : 0 < a) {ξ : ℝ} (h1 : -1 < ξ) (h2 : ξ < 1) {N n : ℕ} (hn : n < N) (n' l l' : ℕ) :
    fRho a n' l' (xiToR ξ a) * (a ^ 3 * (1 + ξ) ^ l * (1 - ξ) ^ (l + 1) * CC ξ N n l) * dVol ξ
      = Knl n' l' / (8 * √π * 4 ^ l') * (radP n n' l l').eval ξ := by
  have p1 : 1 + ξ ≠ 0 := by linarith
  have p2 : 1 - ξ ≠ 0 := by linarith
  have hp := (sqrt_pos.2 pi_pos).ne'
  have ea : a + xiToR ξ a = 2 * a / (1 - ξ) := by
    unfold xiToR
    field_simp
    ring
  have eW : W a l' (xiToR ξ a) = (1 - ξ ^ 2) ^ l' / 4 ^ l' := by
    unfold W
    rw [ea, ← div_pow]
    congr 1
    unfold xiToR
    field_simp
    ring
  have eg : g0 a n' l' (xiToR ξ a) = geg (2 * (l' : ℝ) + 3 / 2) ξ n' := by
    unfold g0 al
    rw [xi_xiToR ha h2, Geg.s3]
  have eC : CC ξ N n l = geg (2 * (l : ℝ) + 3 / 2) ξ n := C_eq _ _ hn
  unfold fRho radP dVol Knl
  rw [eW, eg, eC, ea]
  simp only [eval_mul, eval_pow, eval_sub, eval_one, eval_X, Geg.eval_gegP]
  generalize geg (2 * (l' : ℝ) + 3 / 2) ξ n' = G
  generalize geg (2 * (l : ℝ) + 3 / 2) ξ n = G'
  have e3 : (1 - ξ ^ 2) ^ (l + l' + 1) = (1 - ξ ^ 2) ^ l' * ((1 + ξ) ^ l * (1 - ξ) ^ l * ((1 + ξ) * (1 - ξ))) := by
    rw [← mul_pow, pow_add, pow_add]
    ring_nf
  rw [e3]
  unfold xiToR
  rw [pow_succ (1 - ξ) l]
  field_simp
  ring

theorem deg_radP (n n' l l' : ℕ) : (radP n n' l l').natDegree ≤ 2 * (l + l' + 1) + n' + n := by
  unfold radP
  have a := natDegree_mul_le (p := (1 - X ^ 2 : ℝ[X]) ^ (l + l' + 1)) (q := gegP (2 * (l' : ℝ) + 3 / 2) n')
  have b := Leg.deg_w (l + l' + 1)
  have c := Geg.deg_gegP (2 * (l' : ℝ) + 3 / 2) n'
  have d := Geg.deg_gegP (2 * (l : ℝ) + 3 / 2) n
  refine natDegree_mul_le.trans ?_
  omega

theorem int_radP (n n' l : ℕ) :
    ∫ x in (-1 : ℝ)..1, (radP n n' l l).eval x = if n' = n then Geg.H (2 * l + 1) n else 0 := by
  have e : ∫ x in (-1 : ℝ)..1, (radP n n' l l).eval x = ∫ x in (-1 : ℝ)..1, (1 - x ^ 2) ^ (2 * l + 1)
      * geg (((2 * l + 1 : ℕ) : ℝ) + 1 / 2) x n' * geg (((2 * l + 1 : ℕ) : ℝ) + 1 / 2) x n := by
    refine integral_congr fun x _ => ?_
    simp only [radP, eval_mul, eval_pow, eval_sub, eval_one, eval_X, Geg.eval_gegP, half_int, show l + l + 1 = 2 * l + 1 by ring]
  rw [e]
  split_ifs with h
  · subst h
    exact Geg.nrm_eq _ _
  · exact Geg.orth _ h

/-- The radial sum for equal degrees. -/
theorem rad_sum (ha : 0 < a) {r : Rule} {K N n n' l : ℕ} (g : r.Gauss K) (hn : n < N) (hK : 4 * l + 2 + n' + n < 2 * K) :
    ∑ i ∈ range K, r.w i * (fRho a n' l (xiToR (r.x i) a)
        * (a ^ 3 * (1 + r.x i) ^ l * (1 - r.x i) ^ (l + 1) * CC (r.x i) N n l) * dVol (r.x i))
      = if n' = n then Knl n l / (8 * √π * 4 ^ l) * Geg.H (2 * l + 1) n else 0 := by
  have e : ∀ i ∈ range K, r.w i * (fRho a n' l (xiToR (r.x i) a)
        * (a ^ 3 * (1 + r.x i) ^ l * (1 - r.x i) ^ (l + 1) * CC (r.x i) N n l) * dVol (r.x i))
      = Knl n' l / (8 * √π * 4 ^ l) * (r.w i * (radP n n' l l).eval (r.x i)) := fun i hi => by
    obtain ⟨h1, h2⟩ := g.inside i (Finset.mem_range.1 hi)
    rw [rad_eq ha h1 h2 hn]
    ring
  rw [Finset.sum_congr rfl e, ← Finset.mul_sum, g.exact _ ((deg_radP n n' l l).trans_lt (by omega)), int_radP]
  split_ifs with h
  · rw [h]
  · rw [mul_zero]

/-- The sum over the polar angle. -/
theorem pol_sum {r : Rule} {K l l' m : ℕ} (g : r.Gauss K) (hK : l + l' < 2 * K) :
    ∑ j ∈ range K, r.w j * (alp l' m (r.x j) * alp l m (r.x j))
      = if l' = l ∧ m ≤ l then 2 / (2 * (l : ℝ) + 1) * ((l + m).factorial / (l - m).factorial) else 0 := by
  by_cases h : m ≤ l ∧ m ≤ l'
  · obtain ⟨h1, h2⟩ := h
    have e : ∀ j ∈ range K, r.w j * (alp l' m (r.x j) * alp l m (r.x j)) = r.w j * (Leg.mulP l l' m).eval (r.x j) := fun j hj => by
      obtain ⟨k1, k2⟩ := g.inside j (Finset.mem_range.1 hj)
      rw [Leg.eval_mulP h1 h2 (by nlinarith)]
      ring
    rw [Finset.sum_congr rfl e, g.exact _ ((Leg.deg_mulP h1 h2).trans_lt hK), Leg.orth h1 h2]
    by_cases hl : l = l'
    · rw [if_pos hl, if_pos ⟨hl.symm, h1⟩]
    · rw [if_neg hl, if_neg fun k => hl k.1.symm]
  · have z : ∀ x, alp l' m x * alp l m x = 0 := fun x => by
      rcases not_and_or.1 h with h | h
      · have := Leg.q_zero (l := l) (m := m) (by omega) x
        rw [Leg.q] at this
        rw [alp, alp, this]
        simp
      · have := Leg.q_zero (l := l') (m := m) (by omega) x
        rw [Leg.q] at this
        rw [alp, this]
        simp
    simp only [z, mul_zero, Finset.sum_const_zero]
    rw [if_neg]
    rintro ⟨rfl, k⟩
    exact h ⟨k, k⟩

/-- The two-dimensional sum for a finite expansion: the polar angle. -/
theorem core_gen {a : ℝ} {r s : Rule} {K₁ K₂ N N' L n l m : ℕ} (g₂ : s.Gauss K₂) (hm : m ≤ l) (h₂ : l + L ≤ 2 * K₂) (B : ℕ → ℕ → ℝ) :
    ∑ i ∈ range K₁, ∑ j ∈ range K₂, r.w i * s.w j *
      ((∑ n' ∈ range N, ∑ l' ∈ range L, fRho a n' l' (xiToR (r.x i) a) * alp l' m (s.x j) * B n' l')
        * (a ^ 3 * (1 + r.x i) ^ l * (1 - r.x i) ^ (l + 1) * CC (r.x i) N' n l * alp l m (s.x j)) * dVol (r.x i))
    = ∑ n' ∈ range N, (if l < L then B n' l else 0) * (2 / (2 * (l : ℝ) + 1) * ((l + m).factorial / (l - m).factorial))
        * (∑ i ∈ range K₁, r.w i * (fRho a n' l (xiToR (r.x i) a)
        * (a ^ 3 * (1 + r.x i) ^ l * (1 - r.x i) ^ (l + 1) * CC (r.x i) N' n l) * dVol (r.x i))) := by
  have e : ∀ i ∈ range K₁, ∑ j ∈ range K₂, r.w i * s.w j *
      ((∑ n' ∈ range N, ∑ l' ∈ range L, fRho a n' l' (xiToR (r.x i) a) * alp l' m (s.x j) * B n' l')
        * (a ^ 3 * (1 + r.x i) ^ l * (1 - r.x i) ^ (l + 1) * CC (r.x i) N' n l * alp l m (s.x j)) * dVol (r.x i))
      = ∑ n' ∈ range N, (if l < L then B n' l else 0) * (2 / (2 * (l : ℝ) + 1) * ((l + m).factorial / (l - m).factorial))
        * (r.w i * (fRho a n' l (xiToR (r.x i) a)
        * (a ^ 3 * (1 + r.x i) ^ l * (1 - r.x i) ^ (l + 1) * CC (r.x i) N' n l) * dVol (r.x i))) := by
    intro i _
    have e1 : ∀ j ∈ range K₂, r.w i * s.w j *
      ((∑ n' ∈ range N, ∑ l' ∈ range L, fRho a n' l' (xiToR (r.x i) a) * alp l' m (s.x j) * B n' l')
        * (a ^ 3 * (1 + r.x i) ^ l * (1 - r.x i) ^ (l + 1) * CC (r.x i) N' n l * alp l m (s.x j)) * dVol (r.x i))
        = ∑ n' ∈ range N, ∑ l' ∈ range L, (B n' l' * (r.w i * (fRho a n' l' (xiToR (r.x i) a)
        * (a ^ 3 * (1 + r.x i) ^ l * (1 - r.x i) ^ (l + 1) * CC (r.x i) N' n l) * dVol (r.x i))))
          * (s.w j * (alp l' m (s.x j) * alp l m (s.x j))) := by
      intro j _
      simp only [Finset.sum_mul, Finset.mul_sum]
      refine Finset.sum_congr rfl fun n' _ => Finset.sum_congr rfl fun l' _ => ?_
      ring
    rw [Finset.sum_congr rfl e1, Finset.sum_comm]
    refine Finset.sum_congr rfl fun n' _ => ?_
    rw [Finset.sum_comm]
    simp only [← Finset.mul_sum]
    have e2 : ∀ l' ∈ range L, (B n' l' * (r.w i * (fRho a n' l' (xiToR (r.x i) a)
        * (a ^ 3 * (1 + r.x i) ^ l * (1 - r.x i) ^ (l + 1) * CC (r.x i) N' n l) * dVol (r.x i))))
          * (∑ j ∈ range K₂, s.w j * (alp l' m (s.x j) * alp l m (s.x j)))
        = if l' = l then B n' l' * (2 / (2 * (l : ℝ) + 1) * ((l + m).factorial / (l - m).factorial))
          * (r.w i * (fRho a n' l' (xiToR (r.x i) a)
        * (a ^ 3 * (1 + r.x i) ^ l * (1 - r.x i) ^ (l + 1) * CC (r.x i) N' n l) * dVol (r.x i))) else 0 := by
      intro l' hl'
      rw [pol_sum g₂ (by have := Finset.mem_range.1 hl'; omega)]
      by_cases h : l' = l
      · rw [if_pos ⟨h, hm⟩, if_pos h]
        ring
      · rw [if_neg fun k => h k.1, if_neg h, mul_zero]
    rw [Finset.sum_congr rfl e2, Finset.sum_ite_eq' (range L) l]
    simp only [Finset.mem_range]
    split_ifs
    · rfl
    · simp
  rw [Finset.sum_congr rfl e, Finset.sum_comm]
  simp only [← Finset.mul_sum]

/-- The two-dimensional sum for a finite expansion. -/
theorem core_sum (ha : 0 < a) {r s : Rule} {K₁ K₂ N N' L n l m : ℕ} (g₁ : r.Gauss K₁) (g₂ : s.Gauss K₂) (hn : n < N')
    (hm : m ≤ l) (h₁ : 4 * l + n + N + 1 < 2 * K₁) (h₂ : l + L ≤ 2 * K₂) (B : ℕ → ℕ → ℝ) :
    ∑ i ∈ range K₁, ∑ j ∈ range K₂, r.w i * s.w j *
      ((∑ n' ∈ range N, ∑ l' ∈ range L, fRho a n' l' (xiToR (r.x i) a) * alp l' m (s.x j) * B n' l')
        * (a ^ 3 * (1 + r.x i) ^ l * (1 - r.x i) ^ (l + 1) * CC (r.x i) N' n l * alp l m (s.x j)) * dVol (r.x i))
    = (if n < N ∧ l < L then B n l else 0) * (Knl n l / (8 * √π * 4 ^ l) * Geg.H (2 * l + 1) n)
        * (2 / (2 * (l : ℝ) + 1) * ((l + m).factorial / (l - m).factorial)) := by
  rw [core_gen g₂ hm h₂]
  have e3 : ∀ n' ∈ range N, (if l < L then B n' l else 0) * (2 / (2 * (l : ℝ) + 1) * ((l + m).factorial / (l - m).factorial))
        * (∑ i ∈ range K₁, r.w i * (fRho a n' l (xiToR (r.x i) a)
        * (a ^ 3 * (1 + r.x i) ^ l * (1 - r.x i) ^ (l + 1) * CC (r.x i) N' n l) * dVol (r.x i)))
      = if n' = n then (if l < L then B n' l else 0) * (Knl n l / (8 * √π * 4 ^ l) * Geg.H (2 * l + 1) n)
        * (2 / (2 * (l : ℝ) + 1) * ((l + m).factorial / (l - m).factorial)) else 0 := by
    intro n' hn'
    rw [rad_sum ha g₁ hn (by have := Finset.mem_range.1 hn'; omega)]
    by_cases h : n' = n
    · rw [if_pos h, if_pos h]
      ring
    · rw [if_neg h, if_neg h, mul_zero]
  rw [Finset.sum_congr rfl e3, Finset.sum_ite_eq' (range N) n]
  simp only [Finset.mem_range]
  by_cases h : n < N <;> simp [h]

/-! ### Constants -/

theorem Knl_pos (n l : ℕ) : 0 < Knl n l := by
  unfold Knl
  positivity

theorem gfac (j : ℕ) : Gamma ((j : ℝ) + 1) = (j.factorial : ℝ) := Gamma_nat_eq_factorial j

theorem Inl_eq (n l : ℕ) : Inl n l = -(Knl n l / 4 * 16 ^ (-(l : ℤ)) * Geg.H (2 * l + 1) n) := by
  have g := Gamma_pos_of_pos (show (0 : ℝ) < 2 * (l : ℝ) + 3 / 2 by positivity)
  have e1 : Gamma ((n : ℝ) + 4 * l + 3) = ((n + 2 * (2 * l + 1)).factorial : ℝ) := by
    rw [← gfac]
    push_cast
    ring_nf
  have e2 : Gamma ((n : ℝ) + 1) = (n.factorial : ℝ) := gfac n
  have f1 : (0 : ℝ) < ((n + 2 * (2 * l + 1)).factorial : ℝ) := by positivity
  have f2 : (0 : ℝ) < (n.factorial : ℝ) := by positivity
  have f3 : (0 : ℝ) < (n : ℝ) + 2 * l + 3 / 2 := by positivity
  have ex : exp (-(8 * (l : ℝ) + 6) * log 2 + log (Gamma ((n : ℝ) + 4 * l + 3)) - log (Gamma ((n : ℝ) + 1))
      - log ((n : ℝ) + 2 * l + 3 / 2) - 2 * log (Gamma (2 * (l : ℝ) + 3 / 2)))
      = ((n + 2 * (2 * l + 1)).factorial : ℝ) / (2 ^ (8 * l + 6) * (n.factorial : ℝ) * ((n : ℝ) + 2 * l + 3 / 2)
        * Gamma (2 * (l : ℝ) + 3 / 2) ^ 2) := by
    rw [e1, e2, exp_sub, exp_sub, exp_sub, exp_add, exp_log f1, exp_log f2, exp_log f3, two_mul (log _), exp_add, exp_log g]
    have : exp (-(8 * (l : ℝ) + 6) * log 2) = (2 ^ (8 * l + 6))⁻¹ := by
      rw [neg_mul, exp_neg, mul_comm, ← Real.rpow_def_of_pos two_pos, ← rpow_natCast]
      push_cast
      rfl
    rw [this]
    field_simp
  unfold Inl
  simp only []
  rw [ex]
  unfold Geg.H
  rw [← half_int]
  generalize Gamma (2 * (l : ℝ) + 3 / 2) = G at *
  have h2 : (2 : ℝ) ^ (8 * l + 6) = 16 ^ l * 4 ^ (2 * l + 1) * 16 := by
    rw [show (16 : ℝ) = 2 ^ 4 by norm_num, show (4 : ℝ) = 2 ^ 2 by norm_num, ← pow_mul, ← pow_mul, ← pow_add, ← pow_add]
    ring_nf
  rw [h2, zpow_neg, zpow_natCast]
  have h16 : (16 : ℝ) ^ l ≠ 0 := by positivity
  have h4 : (4 : ℝ) ^ (2 * l + 1) ≠ 0 := by positivity
  rw [show (n : ℝ) + (2 * l + 3 / 2) = (n : ℝ) + 2 * l + 3 / 2 by ring]
  have := g.ne'
  field_simp
  ring

theorem gsub {l m : ℕ} (h : m ≤ l) : Gamma ((l : ℝ) - m + 1) = ((l - m).factorial : ℝ) := by
  rw [← gfac, Nat.cast_sub h]

theorem gadd (l m : ℕ) : Gamma ((l : ℝ) + m + 1) = ((l + m).factorial : ℝ) := by
  rw [← gfac]
  push_cast
  rfl

theorem half_rpow {x : ℝ} (hx : 0 ≤ x) : x ^ (0.5 : ℝ) = √x := by
  rw [sqrt_eq_rpow]
  norm_num

theorem NN_eq {l m : ℕ} (h : m ≤ l) :
    NN l m = √((2 * (l : ℝ) + 1) * ((l - m).factorial / (l + m).factorial)) / √π * (if m = 0 then 1 / 2 else 1) := by
  have f1 : (0 : ℝ) < ((l - m).factorial : ℝ) := by positivity
  have f2 : (0 : ℝ) < ((l + m).factorial : ℝ) := by positivity
  unfold NN
  rw [if_neg (by omega)]
  simp only []
  rw [gsub h, gadd, exp_sub, exp_log f1, exp_log f2, half_rpow (by positivity),
    show (2 * (l : ℝ) + 1) / (4 * π) * (((l - m).factorial : ℝ) / ((l + m).factorial : ℝ))
      = (2 * (l : ℝ) + 1) * (((l - m).factorial : ℝ) / ((l + m).factorial : ℝ)) / (4 * π) by ring,
    sqrt_div (by positivity), show √(4 * π) = 2 * √π by
      rw [sqrt_mul (by norm_num), show (4 : ℝ) = 2 ^ 2 by norm_num, sqrt_sq (by norm_num)]]
  have := (sqrt_pos.2 pi_pos).ne'
  split_ifs
  · field_simp
  · field_simp

theorem cFull_eq {l m : ℕ} (h : m ≤ l) :
    cFull l m = √((2 * (l : ℝ) + 1) * ((l - m).factorial / (l + m).factorial)) * (4 ^ l)⁻¹ := by
  have f1 : (0 : ℝ) < ((l - m).factorial : ℝ) := by positivity
  have f2 : (0 : ℝ) < ((l + m).factorial : ℝ) := by positivity
  unfold cFull
  rw [if_neg (by omega), gsub h, gadd, exp_sub, exp_sub, half_rpow (by positivity)]
  have hh : ∀ x : ℝ, 0 < x → exp (0.5 * log x) = √x := fun x hx => by
    rw [mul_comm, ← Real.rpow_def_of_pos hx, half_rpow hx.le]
  have h4 : exp (2 * (l : ℝ) * log 2) = 4 ^ l := by
    rw [mul_comm, ← Real.rpow_def_of_pos two_pos, rpow_mul two_pos.le, rpow_natCast]
    norm_num
  rw [hh _ f1, hh _ f2, h4, sqrt_mul (by positivity), sqrt_div (by positivity)]
  ring

/-! ### Densities -/

/-- The density of an expansion at a point given by radius and cosine of the polar angle. -/
theorem dens_x {p : Par} (ha : 0 < p.a) {r x : ℝ} (hr : 0 < r) (h1 : -1 < x) (h2 : x < 1) (φ t : ℝ) :
    (raw p).dens (r * √(1 - x ^ 2)) (r * x) φ t = p.sum fun n l m => fRho p.a n l r * alp l m x
      * ((p.coef t).c n l m * cos (m * φ) + (p.coef t).s n l m * sin (m * φ)) := by
  have hx : 0 < 1 - x ^ 2 := by nlinarith
  have hs := sqrt_pos.2 hx
  have := dens_spher (θ := arccos x) ha hr (by rw [sin_arccos]; exact hs) φ t
  rw [sin_arccos, cos_arccos h1.le h2.le] at this
  exact this

theorem ints (k : ℤ) : ∫ φ in (0 : ℝ)..(2 * π), cos (k * φ) = if k = 0 then 2 * π else 0 := by
  split_ifs with h
  · simp [h]
  · rcases Int.eq_nat_or_neg k with ⟨j, rfl | rfl⟩
    · have := int_cosm (m := j) 1 0 (by simpa using h)
      simpa using this
    · have := int_cosm (m := j) 1 0 (by simpa using h)
      simpa using this

theorem intsin (k : ℤ) : ∫ φ in (0 : ℝ)..(2 * π), sin (k * φ) = 0 := by
  rcases Int.eq_nat_or_neg k with ⟨j, rfl | rfl⟩
  · by_cases h : j = 0
    · simp [h]
    · have := int_cosm (m := j) 0 1 h
      simpa using this
  · by_cases h : j = 0
    · simp [h]
    · have := int_cosm (m := j) 0 1 h
      simpa using this

theorem trig_cos (m m' : ℕ) (c s : ℝ) :
    ∫ φ in (0 : ℝ)..(2 * π), (c * cos (m' * φ) + s * sin (m' * φ)) * cos (m * φ)
      = if m' = m then c * (π * if m = 0 then 2 else 1) else 0 := by
  have e : ∀ φ : ℝ, (c * cos (m' * φ) + s * sin (m' * φ)) * cos (m * φ)
      = c / 2 * cos (((m' : ℤ) - m : ℤ) * φ) + c / 2 * cos (((m' : ℤ) + m : ℤ) * φ)
        + (s / 2 * sin (((m' : ℤ) - m : ℤ) * φ) + s / 2 * sin (((m' : ℤ) + m : ℤ) * φ)) := fun φ => by
    push_cast
    rw [sub_mul, show ((m' : ℝ) + m) * φ = m' * φ + m * φ by ring, cos_sub, cos_add, sin_sub, sin_add]
    ring
  simp only [e]
  have i : ∀ (d : ℝ) (k : ℤ), IntervalIntegrable (fun φ : ℝ => d * cos (k * φ)) volume 0 (2 * π) := fun d k =>
    Continuous.intervalIntegrable (by fun_prop) _ _
  have i' : ∀ (d : ℝ) (k : ℤ), IntervalIntegrable (fun φ : ℝ => d * sin (k * φ)) volume 0 (2 * π) := fun d k =>
    Continuous.intervalIntegrable (by fun_prop) _ _
  rw [intervalIntegral.integral_add ((i _ _).add (i _ _)) ((i' _ _).add (i' _ _)), intervalIntegral.integral_add (i _ _) (i _ _),
    intervalIntegral.integral_add (i' _ _) (i' _ _)]
  simp only [intervalIntegral.integral_const_mul, ints, intsin]
  by_cases h : m' = m
  · subst h
    by_cases h0 : m' = 0
    · subst h0
      simp
      ring
    · rw [if_pos (by omega), if_neg (by omega), if_pos rfl, if_neg h0]
      ring
  · rw [if_neg (by omega), if_neg (by omega), if_neg h]
    ring

theorem trig_sin (m m' : ℕ) (c s : ℝ) :
    ∫ φ in (0 : ℝ)..(2 * π), (c * cos (m' * φ) + s * sin (m' * φ)) * sin (m * φ)
      = if m' = m then s * (π * if m = 0 then 0 else 1) else 0 := by
  have e : ∀ φ : ℝ, (c * cos (m' * φ) + s * sin (m' * φ)) * sin (m * φ)
      = s / 2 * cos (((m' : ℤ) - m : ℤ) * φ) + (-s / 2) * cos (((m' : ℤ) + m : ℤ) * φ)
        + ((-c / 2) * sin (((m' : ℤ) - m : ℤ) * φ) + c / 2 * sin (((m' : ℤ) + m : ℤ) * φ)) := fun φ => by
    push_cast
    rw [sub_mul, show ((m' : ℝ) + m) * φ = m' * φ + m * φ by ring, cos_sub, cos_add, sin_sub, sin_add]
    ring
  simp only [e]
  have i : ∀ (d : ℝ) (k : ℤ), IntervalIntegrable (fun φ : ℝ => d * cos (k * φ)) volume 0 (2 * π) := fun d k =>
    Continuous.intervalIntegrable (by fun_prop) _ _
  have i' : ∀ (d : ℝ) (k : ℤ), IntervalIntegrable (fun φ : ℝ => d * sin (k * φ)) volume 0 (2 * π) := fun d k =>
    Continuous.intervalIntegrable (by fun_prop) _ _
  rw [intervalIntegral.integral_add ((i _ _).add (i _ _)) ((i' _ _).add (i' _ _)), intervalIntegral.integral_add (i _ _) (i _ _),
    intervalIntegral.integral_add (i' _ _) (i' _ _)]
  simp only [intervalIntegral.integral_const_mul, ints, intsin]
  by_cases h : m' = m
  · subst h
    by_cases h0 : m' = 0
    · subst h0
      simp
      ring
    · rw [if_pos (by omega), if_neg (by omega), if_pos rfl, if_neg h0]
      ring
  · rw [if_neg (by omega), if_neg (by omega), if_neg h]
    ring

/-- The algebra of the normalisations, for `m ≤ l`. -/
theorem const_id {l m : ℕ} (n : ℕ) (h : m ≤ l) (A : ℝ) :
    2 * (Inl n l)⁻¹ * (-(1 / 2 * (A * NN l m * (π * if m = 0 then 2 else 1)) * (Knl n l / (8 * √π * 4 ^ l) * Geg.H (2 * l + 1) n)
        * (2 / (2 * (l : ℝ) + 1) * ((l + m).factorial / (l - m).factorial)))) * cFull l m = A := by
  have f1 : (0 : ℝ) < ((l - m).factorial : ℝ) := by positivity
  have f2 : (0 : ℝ) < ((l + m).factorial : ℝ) := by positivity
  rw [Inl_eq, NN_eq h, cFull_eq h]
  have hq : √((2 * (l : ℝ) + 1) * ((l - m).factorial / (l + m).factorial)) ^ 2
      = (2 * (l : ℝ) + 1) * ((l - m).factorial / (l + m).factorial) := sq_sqrt (by positivity)
  have hp : √π ^ 2 = π := sq_sqrt pi_pos.le
  have hp0 := (sqrt_pos.2 pi_pos).ne'
  have hk := (Knl_pos n l).ne'
  have hH := (Geg.H_pos (2 * l + 1) n).ne'
  have h16 : (16 : ℝ) ^ l = 4 ^ l * 4 ^ l := by rw [← mul_pow]; norm_num
  have h4 : (4 : ℝ) ^ l ≠ 0 := by positivity
  rw [zpow_neg, zpow_natCast, h16]
  have h0 : (if m = 0 then (1 / 2 : ℝ) else 1) * (if m = 0 then 2 else 1) = 1 := by split_ifs <;> norm_num
  generalize (if m = 0 then (1 / 2 : ℝ) else 1) = u at *
  generalize (if m = 0 then (2 : ℝ) else 1) = v at *
  generalize √((2 * (l : ℝ) + 1) * ((l - m).factorial / (l + m).factorial)) = q at *
  generalize Geg.H (2 * l + 1) n = H at *
  generalize Knl n l = k at *
  have hl : 2 * (l : ℝ) + 1 ≠ 0 := by positivity
  have f1' := f1.ne'
  have f2' := f2.ne'
  have hq' : q ^ 2 * ((l + m).factorial : ℝ) = (2 * (l : ℝ) + 1) * ((l - m).factorial : ℝ) := by
    rw [hq]
    field_simp
  generalize √π = w at *
  rw [← hp]
  field_simp
  linear_combination (8 * A * u * v) * hq' + (8 * A * (2 * (l : ℝ) + 1) * ((l - m).factorial : ℝ)) * h0

/-! ### Recovering the coefficients -/

theorem full_dens {p : Par} (ha : 0 < p.a) (trig : ℝ → ℝ) (ht : Continuous trig) (T : ℕ → ℝ → ℝ → ℝ) {m : ℕ}
    (hT : ∀ (m' : ℕ) (c s : ℝ), ∫ φ in (0 : ℝ)..(2 * π), (c * cos (m' * φ) + s * sin (m' * φ)) * trig (m * φ) = if m' = m then T m c s else 0)
    {r x : ℝ} (hr : 0 < r) (h1 : -1 < x) (h2 : x < 1) (t u v : ℝ) :
    ∫ φ in (0 : ℝ)..(2 * π), ((raw p).scale (1 / 2)).dens (r * √(1 - x ^ 2)) (r * x) φ t * u * trig (m * φ) * v
      = (∑ n' ∈ range p.N, ∑ l' ∈ range p.L, fRho p.a n' l' r * alp l' m x
          * (if m < p.M then 1 / 2 * T m ((p.coef t).c n' l' m) ((p.coef t).s n' l' m) else 0)) * u * v := by
  have e : ∀ φ : ℝ, ((raw p).scale (1 / 2)).dens (r * √(1 - x ^ 2)) (r * x) φ t * u * trig (m * φ) * v
      = ∑ i ∈ p.idx, (1 / 2 * (fRho p.a i.1 i.2.1 r * alp i.2.1 i.2.2 x) * u * v)
        * (((p.coef t).c i.1 i.2.1 i.2.2 * cos (i.2.2 * φ) + (p.coef t).s i.1 i.2.1 i.2.2 * sin (i.2.2 * φ)) * trig (m * φ)) := by
    intro φ
    simp only [Pot.scale]
    rw [dens_x ha hr h1 h2, Par.sum_eq]
    simp only [Finset.mul_sum, Finset.sum_mul]
    refine Finset.sum_congr rfl fun i _ => ?_
    ring
  simp only [e]
  rw [integral_finset_sum fun i _ => Continuous.intervalIntegrable (by fun_prop) _ _]
  simp only [intervalIntegral.integral_const_mul, hT]
  rw [← Par.sum_eq p fun n l m' => (1 / 2 * (fRho p.a n l r * alp l m' x) * u * v)
    * if m' = m then T m ((p.coef t).c n l m') ((p.coef t).s n l m') else 0]
  unfold Par.sum
  rw [Finset.sum_mul, Finset.sum_mul]
  refine Finset.sum_congr rfl fun n _ => ?_
  rw [Finset.sum_mul, Finset.sum_mul]
  refine Finset.sum_congr rfl fun l _ => ?_
  simp only [mul_ite, mul_zero]
  rw [Finset.sum_ite_eq' (range p.M) m]
  simp only [Finset.mem_range]
  split_ifs
  · ring
  · ring

theorem full_raw {p : Par} (ha : 0 < p.a) {leg : ℕ → Rule} {N L : ℕ} {ro co : Option ℕ}
    (in₁ : ∀ i < orderR N L ro, -1 < (leg (orderR N L ro)).x i ∧ (leg (orderR N L ro)).x i < 1)
    (g₂ : (leg (orderC L co)).Gauss (orderC L co))
    (trig : ℝ → ℝ) (ht : Continuous trig) (T : ℕ → ℝ → ℝ → ℝ) {n l m : ℕ} (hm : m ≤ l)
    (hT : ∀ (m' : ℕ) (c s : ℝ), ∫ φ in (0 : ℝ)..(2 * π), (c * cos (m' * φ) + s * sin (m' * φ)) * trig (m * φ) = if m' = m then T m c s else 0)
    (h₂ : l + p.L ≤ 2 * orderC L co) (t : ℝ) :
    coefFull leg trig (fun R z φ => ((raw p).scale (1 / 2)).dens R z φ t) N L p.a ro co n l m
      = 2 * (Inl n l)⁻¹ * (-∑ n' ∈ range p.N, (if l < p.L then (if m < p.M then 1 / 2 * T m ((p.coef t).c n' l m) ((p.coef t).s n' l m)
          else 0) else 0) * (2 / (2 * (l : ℝ) + 1) * ((l + m).factorial / (l - m).factorial))
        * (∑ i ∈ range (orderR N L ro), (leg (orderR N L ro)).w i * (fRho p.a n' l (xiToR ((leg (orderR N L ro)).x i) p.a)
        * (p.a ^ 3 * (1 + (leg (orderR N L ro)).x i) ^ l * (1 - (leg (orderR N L ro)).x i) ^ (l + 1)
          * CC ((leg (orderR N L ro)).x i) N n l) * dVol ((leg (orderR N L ro)).x i)))) * cFull l m := by
  unfold coefFull quad3
  simp only []
  rw [quad2_eq, ← core_gen (N := p.N) (N' := N) (L := p.L) g₂ hm h₂
    (fun n l => if m < p.M then 1 / 2 * T m ((p.coef t).c n l m) ((p.coef t).s n l m) else 0)]
  congr 2
  rw [← Finset.sum_neg_distrib]
  refine Finset.sum_congr rfl fun i hi => ?_
  rw [← Finset.sum_neg_distrib]
  refine Finset.sum_congr rfl fun j hj => ?_
  obtain ⟨a1, a2⟩ := in₁ i (Finset.mem_range.1 hi)
  obtain ⟨b1, b2⟩ := g₂.inside j (Finset.mem_range.1 hj)
  rw [full_dens ha trig ht T hT (xiToR_pos ha a1 a2) b1 b2]
  unfold PP
  ring

theorem full_gen {p : Par} (ha : 0 < p.a) {leg : ℕ → Rule} {N L : ℕ} {ro co : Option ℕ}
    (g₁ : (leg (orderR N L ro)).Gauss (orderR N L ro)) (g₂ : (leg (orderC L co)).Gauss (orderC L co))
    (trig : ℝ → ℝ) (ht : Continuous trig) (T : ℕ → ℝ → ℝ → ℝ) {n l m : ℕ} (hn : n < N) (hm : m ≤ l)
    (hT : ∀ (m' : ℕ) (c s : ℝ), ∫ φ in (0 : ℝ)..(2 * π), (c * cos (m' * φ) + s * sin (m' * φ)) * trig (m * φ) = if m' = m then T m c s else 0)
    (h₁ : 4 * l + n + p.N + 1 < 2 * orderR N L ro) (h₂ : l + p.L ≤ 2 * orderC L co) (t : ℝ) :
    coefFull leg trig (fun R z φ => ((raw p).scale (1 / 2)).dens R z φ t) N L p.a ro co n l m
      = 2 * (Inl n l)⁻¹ * (-((if n < p.N ∧ l < p.L then (if m < p.M then 1 / 2 * T m ((p.coef t).c n l m) ((p.coef t).s n l m) else 0)
          else 0) * (Knl n l / (8 * √π * 4 ^ l) * Geg.H (2 * l + 1) n)
        * (2 / (2 * (l : ℝ) + 1) * ((l + m).factorial / (l - m).factorial)))) * cFull l m := by
  rw [full_raw ha g₁.inside g₂ trig ht T hm hT h₂, ← core_gen (N := p.N) (N' := N) (L := p.L) g₂ hm h₂
      (fun n l => if m < p.M then 1 / 2 * T m ((p.coef t).c n l m) ((p.coef t).s n l m) else 0),
    core_sum ha g₁ g₂ hn hm h₁ h₂ (fun n l => if m < p.M then 1 / 2 * T m ((p.coef t).c n l m) ((p.coef t).s n l m) else 0)]

theorem full_cos {p : Par} (ha : 0 < p.a) (hs : p.tdep = false) {leg : ℕ → Rule} {N L : ℕ} {ro co : Option ℕ}
    (g₁ : (leg (orderR N L ro)).Gauss (orderR N L ro)) (g₂ : (leg (orderC L co)).Gauss (orderC L co))
    {n l m : ℕ} (hn : n < N) (h₁ : 4 * l + n + p.N + 1 < 2 * orderR N L ro) (h₂ : l + p.L ≤ 2 * orderC L co) (t : ℝ) :
    coefFull leg cos (fun R z φ => ((raw p).scale (1 / 2)).dens R z φ t) N L p.a ro co n l m
      = if n < p.N ∧ l < p.L ∧ m < p.M ∧ m ≤ l then p.Ac n l m else 0 := by
  by_cases hm : m ≤ l
  · rw [full_gen ha g₁ g₂ cos continuous_cos (fun m c _ => c * (π * if m = 0 then 2 else 1)) hn hm
      (fun m' c s => trig_cos m m' c s) h₁ h₂]
    by_cases h : n < p.N ∧ l < p.L
    · by_cases h' : m < p.M
      · rw [if_pos h, if_pos h', if_pos (c := n < p.N ∧ _) ⟨h.1, h.2, h', hm⟩]
        have e : (p.coef t).c n l m = p.Ac n l m * NN l m := by simp [Par.coef, hs]
        rw [e]
        exact const_id n hm _
      · rw [if_pos h, if_neg h', if_neg fun k => h' k.2.2.1]
        ring
    · rw [if_neg h, if_neg fun k => h ⟨k.1, k.2.1⟩]
      ring
  · rw [if_neg fun k => hm k.2.2.2]
    unfold coefFull cFull
    rw [if_pos (by omega)]
    ring

theorem full_sin {p : Par} (ha : 0 < p.a) (hs : p.tdep = false) {leg : ℕ → Rule} {N L : ℕ} {ro co : Option ℕ}
    (g₁ : (leg (orderR N L ro)).Gauss (orderR N L ro)) (g₂ : (leg (orderC L co)).Gauss (orderC L co))
    {n l m : ℕ} (hn : n < N) (h₁ : 4 * l + n + p.N + 1 < 2 * orderR N L ro) (h₂ : l + p.L ≤ 2 * orderC L co) (t : ℝ) :
    coefFull leg sin (fun R z φ => ((raw p).scale (1 / 2)).dens R z φ t) N L p.a ro co n l m
      = if n < p.N ∧ l < p.L ∧ m < p.M ∧ 1 ≤ m ∧ m ≤ l then p.As n l m else 0 := by
  by_cases hm : m ≤ l
  · rw [full_gen ha g₁ g₂ sin continuous_sin (fun m _ s => s * (π * if m = 0 then 0 else 1)) hn hm
      (fun m' c s => trig_sin m m' c s) h₁ h₂]
    by_cases h : n < p.N ∧ l < p.L
    · by_cases h' : m < p.M
      · rw [if_pos h, if_pos h']
        by_cases h0 : m = 0
        · rw [if_pos h0, if_neg (by omega)]
          ring
        · rw [if_neg h0, if_pos ⟨h.1, h.2, h', by omega, hm⟩]
          have e : (p.coef t).s n l m = p.As n l m * NN l m := by simp [Par.coef, hs]
          rw [e]
          have := const_id n hm (p.As n l m)
          rw [if_neg h0] at this
          exact this
      · rw [if_pos h, if_neg h', if_neg fun k => h' k.2.2.1]
        ring
    · rw [if_neg h, if_neg fun k => h ⟨k.1, k.2.1⟩]
      ring
  · rw [if_neg fun k => hm k.2.2.2.2]
    unfold coefFull cFull
    rw [if_pos (by omega)]
    ring

theorem cAxi (l : ℕ) : (2 : ℝ) ^ (-2 * (l : ℝ)) * (2 * (l : ℝ) + 1) ^ (0.5 : ℝ) = cFull l 0 := by
  rw [cFull_eq (by omega), half_rpow (by positivity), rpow_mul two_pos.le, rpow_natCast]
  have f1 : (0 : ℝ) < (l.factorial : ℝ) := by positivity
  rw [Nat.sub_zero, Nat.add_zero, div_self f1.ne', mul_one, mul_comm, ← inv_pow]
  congr 2
  rw [show (-2 : ℝ) = -(2 : ℕ) by norm_num, rpow_neg two_pos.le, rpow_natCast]
  norm_num

/-- An axisymmetric density has the same coefficients with both functions. -/
theorem axi_full (leg : ℕ → Rule) (dens : ℝ → ℝ → ℝ) (N L : ℕ) (a : ℝ) (ro co : Option ℕ) (n l : ℕ) :
    coefAxi leg dens N L a ro co n l = coefFull leg cos (fun R z _ => dens R z) N L a ro co n l 0 := by
  unfold coefAxi coefFull quad3
  simp only []
  rw [neg_mul, cAxi, quad2_eq, quad2_eq, mul_neg, ← neg_mul]
  congr 1
  rw [← mul_neg]
  congr 1
  rw [Finset.sum_mul, ← Finset.sum_neg_distrib]
  refine Finset.sum_congr rfl fun i _ => ?_
  rw [Finset.sum_mul, ← Finset.sum_neg_distrib]
  refine Finset.sum_congr rfl fun j _ => ?_
  simp
  ring

theorem axi_eq {p : Par} (ha : 0 < p.a) (hs : p.tdep = false) (hM : p.M = 1) {leg : ℕ → Rule} {N L : ℕ} {ro co : Option ℕ}
    (g₁ : (leg (orderR N L ro)).Gauss (orderR N L ro)) (g₂ : (leg (orderC L co)).Gauss (orderC L co))
    {n l : ℕ} (hn : n < N) (h₁ : 4 * l + n + p.N + 1 < 2 * orderR N L ro) (h₂ : l + p.L ≤ 2 * orderC L co) :
    coefAxi leg (fun R z => ((raw p).scale (1 / 2)).dens R z 0 0) N L p.a ro co n l
      = if n < p.N ∧ l < p.L then p.Ac n l 0 else 0 := by
  have e : ∀ R z φ, ((raw p).scale (1 / 2)).dens R z 0 0 = ((raw p).scale (1 / 2)).dens R z φ 0 := by
    intro R z φ
    simp only [Pot.scale, raw, dens, atPoint, Par.sum, hM, Finset.sum_range_one, Coords.cyl_to_spher]
    simp
  rw [axi_full, show (fun R z (_ : ℝ) => ((raw p).scale (1 / 2)).dens R z 0 0) = fun R z φ => ((raw p).scale (1 / 2)).dens R z φ 0 by
    funext R z φ; exact e R z φ, full_cos ha hs g₁ g₂ hn h₁ h₂]
  simp [hM]

theorem H_one (n : ℕ) : Geg.H (2 * 0 + 1) n = ((n : ℝ) + 2) * (n + 1) / (n + 3 / 2) := by
  unfold Geg.H
  have g1 : Gamma (((2 * 0 + 1 : ℕ) : ℝ) + 1 / 2) = √π / 2 := by
    rw [show ((2 * 0 + 1 : ℕ) : ℝ) + 1 / 2 = 1 / 2 + 1 by norm_num, Gamma_add_one (by norm_num), Gamma_one_half_eq]
    ring
  have f : ((n + 2 * (2 * 0 + 1)).factorial : ℝ) = ((n : ℝ) + 2) * (n + 1) * n.factorial := by
    rw [show n + 2 * (2 * 0 + 1) = n + 1 + 1 by ring, Nat.factorial_succ, Nat.factorial_succ]
    push_cast
    ring
  have f0 : (0 : ℝ) < n.factorial := by positivity
  rw [f, g1]
  push_cast
  have hn3 : (n : ℝ) + 3 / 2 ≠ 0 := by positivity
  have hn4 : (n : ℝ) + (2 * 0 + 1 + 1 / 2) ≠ 0 := by positivity
  rw [div_eq_div_iff (by positivity) hn3]
  ring_nf
  rw [sq_sqrt pi_pos.le]
  ring

theorem Knl_zero (n : ℕ) : Knl n 0 = 1 + n * (n + 3) / 2 := by
  unfold Knl
  push_cast
  norm_num
  ring

theorem spher_dens {p : Par} (ha : 0 < p.a) (hs : p.tdep = false) (hL : p.L = 1) (hM : p.M = 1) {r : ℝ} (hr : 0 < r) :
    ((raw p).scale (1 / 2)).dens r 0 0 0 = ∑ n ∈ range p.N, fRho p.a n 0 r * (p.Ac n 0 0 * (1 / (4 * √π))) := by
  have := dens_x (p := p) ha hr (x := 0) (by norm_num) (by norm_num) 0 0
  simp only [zero_pow two_ne_zero, sub_zero, sqrt_one, mul_one, mul_zero] at this
  simp only [Pot.scale]
  rw [this]
  have e : NN 0 0 = 1 / (2 * √π) := by
    rw [NN_eq (le_refl 0)]
    norm_num
  have e0 : alp 0 0 0 = 1 := by simp [alp, legP]
  simp only [Par.sum, hL, hM, Finset.sum_range_one, Finset.mul_sum]
  refine Finset.sum_congr rfl fun n _ => ?_
  rw [e0]
  simp [Par.coef, hs, e]
  ring

theorem spher_eq {p : Par} (ha : 0 < p.a) (hs : p.tdep = false) (hL : p.L = 1) (hM : p.M = 1) {leg : ℕ → Rule} {N : ℕ}
    {ro : Option ℕ} (g : (leg (ro.getD (max (N + 1) 20))).Gauss (ro.getD (max (N + 1) 20))) {n : ℕ} (hn : n < N)
    (h : n + p.N + 1 < 2 * ro.getD (max (N + 1) 20)) :
    coefSpher leg (fun r => ((raw p).scale (1 / 2)).dens r 0 0 0) N p.a ro n = if n < p.N then p.Ac n 0 0 else 0 := by
  unfold coefSpher quad1
  simp only [Rule.map_one]
  generalize ro.getD (max (N + 1) 20) = K at g h
  have e : ∀ i ∈ range K, (leg K).w i * (p.a ^ 3 * ((raw p).scale (1 / 2)).dens (xiToR ((leg K).x i) p.a) 0 0 0
        * (1 + (leg K).x i) ^ 2 * ((1 - (leg K).x i) ^ 3)⁻¹ * CC ((leg K).x i) N n 0)
      = ∑ n' ∈ range p.N, (p.Ac n' 0 0 * (1 / (4 * √π))) * ((leg K).w i * (fRho p.a n' 0 (xiToR ((leg K).x i) p.a)
          * (p.a ^ 3 * (1 + (leg K).x i) ^ 0 * (1 - (leg K).x i) ^ (0 + 1) * CC ((leg K).x i) N n 0) * dVol ((leg K).x i))) := by
    intro i hi
    obtain ⟨a1, a2⟩ := g.inside i (Finset.mem_range.1 hi)
    have p2 : 1 - (leg K).x i ≠ 0 := by linarith
    rw [spher_dens ha hs hL hM (xiToR_pos ha a1 a2)]
    simp only [Finset.mul_sum, Finset.sum_mul]
    refine Finset.sum_congr rfl fun n' _ => ?_
    unfold dVol
    generalize fRho p.a n' 0 _ = F
    generalize CC _ _ _ _ = C
    field_simp
    try ring
  rw [Finset.sum_congr rfl e, Finset.sum_comm]
  simp only [← Finset.mul_sum]
  have e2 : ∀ n' ∈ range p.N, (p.Ac n' 0 0 * (1 / (4 * √π))) * ∑ i ∈ range K, (leg K).w i * (fRho p.a n' 0 (xiToR ((leg K).x i) p.a)
          * (p.a ^ 3 * (1 + (leg K).x i) ^ 0 * (1 - (leg K).x i) ^ (0 + 1) * CC ((leg K).x i) N n 0) * dVol ((leg K).x i))
      = if n' = n then p.Ac n 0 0 * (1 / (4 * √π)) * (Knl n 0 / (8 * √π * 4 ^ 0) * Geg.H (2 * 0 + 1) n) else 0 := by
    intro n' hn'
    have := Finset.mem_range.1 hn'
    rw [rad_sum ha g hn (by omega)]
    split_ifs with q
    · rw [q]
    · ring
  rw [Finset.sum_congr rfl e2, Finset.sum_ite_eq' (range p.N) n]
  simp only [Finset.mem_range]
  split_ifs with q
  · have sp := mul_self_sqrt pi_pos.le
    have hp := sqrt_pos.2 pi_pos
    rw [H_one, Knl_zero]
    have q1 : (n : ℝ) + 3 / 2 ≠ 0 := by positivity
    have q2 : (1 : ℝ) + n * (n + 3) / 2 ≠ 0 := by positivity
    have q3 : (n : ℝ) + 2 ≠ 0 := by positivity
    have q4 : (n : ℝ) + 1 ≠ 0 := by positivity
    generalize (1 : ℝ) + n * (n + 3) / 2 = U at q2
    generalize (n : ℝ) + 3 / 2 = V at q1
    generalize √π = S at hp sp
    rw [← sp]
    have := hp.ne'
    field_simp
    try norm_num
    try ring
  · ring

/-! ### Particles -/

theorem pll_eq (x : ℝ) (m : ℕ) : pll x m = alp m m x := by
  induction m with
  | zero => simp [pll, alp, legP]
  | succ m ih => rw [pll, ih, Leg.alp_diag, mul_comm]

theorem plm_eq (x : ℝ) (m j : ℕ) :
    (plm m x (pll x m) j).1 = alp (m + j) m x ∧ (plm m x (pll x m) j).2 = if 0 < j then alp (m + j - 1) m x else 0 := by
  induction j with
  | zero => simp [plm, pll_eq]
  | succ j ih =>
    refine ⟨?_, ?_⟩
    · have h := Leg.alp_rec (l := m + j) (m := m) (by omega) x
      have hj : (m : ℝ) + j - m + 1 ≠ 0 := by
        have : (0 : ℝ) ≤ j := j.cast_nonneg
        linarith
      simp only [plm]
      rw [ih.1, ih.2, div_eq_iff hj, show m + (j + 1) = m + j + 1 by ring]
      push_cast at h
      by_cases h0 : 0 < j
      · rw [if_pos h0]
        rw [if_pos (by omega)] at h
        linarith
      · rw [if_neg h0]
        rw [if_neg (by omega)] at h
        linarith
    · rw [if_pos (by omega)]
      simp only [plm]
      rw [ih.1]
      rfl

theorem phinlm_eq (N : ℕ) (a : ℝ) {n l m : ℕ} (h : m ≤ l) (q : Particle) :
    phinlm N a n l m q = -((q.r / a) ^ l) / (1 + q.r / a) ^ (2 * l + 1) * CC (RToxi q.r a) N n l * alp l m q.costheta := by
  unfold phinlm
  rw [(plm_eq _ m (l - m)).1, Nat.add_sub_cancel' h]

theorem InlB_eq (n l : ℕ) : InlB n l = Inl n l / 2 := by
  have g := Gamma_pos_of_pos (show (0 : ℝ) < 2 * (l : ℝ) + 3 / 2 by positivity)
  have g1 := Gamma_pos_of_pos (show (0 : ℝ) < (n : ℝ) + 4 * l + 3 by positivity)
  have g2 := Gamma_pos_of_pos (show (0 : ℝ) < (n : ℝ) + 1 by positivity)
  have g3 : (0 : ℝ) < (n : ℝ) + 2 * l + 3 / 2 := by positivity
  unfold Inl InlB
  simp only []
  rw [exp_sub, exp_sub, exp_sub, exp_add, exp_log g1, exp_log g2, exp_log g3, two_mul (log (Gamma (2 * (l : ℝ) + 3 / 2))), exp_add,
    exp_log g, show (1.5 : ℝ) = 3 / 2 by norm_num, show -(8 * (l : ℝ) + 6) * log 2 = -(log 2 * (8 * (l : ℝ) + 6)) by ring,
    exp_neg, ← rpow_def_of_pos two_pos]
  have := rpow_pos_of_pos two_pos (8 * (l : ℝ) + 6)
  generalize (2 : ℝ) ^ (8 * (l : ℝ) + 6) = W at this
  field_simp
  try ring

/-! ### Gauss rules -/

/-- Gauss-Legendre quadrature exists for every order. -/
theorem exists_gauss : ∃ leg : ℕ → Rule, ∀ K, (leg K).Gauss K := by
  choose x w h using GaussQuad.exists_rule
  exact ⟨fun K => ⟨x K, w K⟩, fun K => ⟨(h K).1, (h K).2⟩⟩

/-- It is not exact for any polynomial of degree `2 K`. -/
theorem Rule.Gauss.not_exact {r : Rule} {K : ℕ} (g : r.Gauss K) {f : ℝ[X]} (hd : f.natDegree = 2 * K) (hK : 0 < K) :
    ∑ i ∈ range K, r.w i * f.eval (r.x i) ≠ ∫ x in (-1 : ℝ)..1, f.eval x := by
  have h0 : f ≠ 0 := fun h => by rw [h] at hd; simp at hd; omega
  set Q : ℝ[X] := (∏ i ∈ range K, (Polynomial.X - Polynomial.C (r.x i))) ^ 2 with hQ
  have mon : (∏ i ∈ range K, (Polynomial.X - Polynomial.C (r.x i))).Monic := monic_prod_of_monic _ _ fun s _ => monic_X_sub_C _
  have Qm : Q.Monic := mon.pow 2
  have Qd : Q.natDegree = 2 * K := by
    rw [hQ, mon.natDegree_pow, natDegree_prod_of_monic _ _ fun s _ => monic_X_sub_C _]
    simp
  have Qz : ∀ i ∈ range K, Q.eval (r.x i) = 0 := fun i hi => by
    rw [hQ, eval_pow, eval_prod, Finset.prod_eq_zero hi (by simp), zero_pow two_ne_zero]
  have Qp : 0 < ∫ x in (-1 : ℝ)..1, Q.eval x := GaussQuad.int_pos Qm.ne_zero fun x _ => by
    rw [hQ, eval_pow]
    exact sq_nonneg _
  set c := f.leadingCoeff with hc
  have c0 : c ≠ 0 := leadingCoeff_ne_zero.2 h0
  set h := f - Polynomial.C c * Q with hh
  have hdeg : h.natDegree < 2 * K := by
    have d1 : (Polynomial.C c * Q).natDegree = 2 * K := by rw [natDegree_C_mul c0, Qd]
    have cQ : Polynomial.C c * Q ≠ 0 := fun k => by rw [k] at d1; simp at d1; omega
    have lt : h.degree < f.degree := by
      refine degree_sub_lt ?_ h0 ?_
      · rw [degree_eq_natDegree h0, degree_eq_natDegree cQ, hd, d1]
      · rw [leadingCoeff_mul, leadingCoeff_C, Qm.leadingCoeff, mul_one]
    by_cases hz : h = 0
    · rw [hz, natDegree_zero]
      omega
    · have := natDegree_lt_natDegree hz lt
      omega
  have ex := g.exact h hdeg
  have e1 : ∑ i ∈ range K, r.w i * h.eval (r.x i) = ∑ i ∈ range K, r.w i * f.eval (r.x i) :=
    Finset.sum_congr rfl fun i hi => by rw [hh, eval_sub, eval_mul, Qz i hi]; ring
  have e2 : ∫ x in (-1 : ℝ)..1, h.eval x = (∫ x in (-1 : ℝ)..1, f.eval x) - c * ∫ x in (-1 : ℝ)..1, Q.eval x := by
    simp only [hh, eval_sub, eval_mul, eval_C]
    rw [intervalIntegral.integral_sub (GaussQuad.pint _ _ _) ((GaussQuad.pint _ _ _).const_mul _), intervalIntegral.integral_const_mul]
  rw [e1, e2] at ex
  rw [ex]
  intro k
  have : c * ∫ x in (-1 : ℝ)..1, Q.eval x = 0 := by linarith
  rcases mul_eq_zero.1 this with h | h
  · exact c0 h
  · exact Qp.ne' h

theorem natDegree_radP (n l : ℕ) : (radP n n l l).natDegree = 4 * l + 2 + 2 * n := by
  have hg : ∀ l n : ℕ, (gegP (2 * (l : ℝ) + 3 / 2) n).natDegree = n := fun l n =>
    natDegree_eq_of_le_of_coeff_ne_zero (Geg.deg_gegP _ _) (Geg.lead_gegP (by positivity) n).ne'
  have hn : ∀ l n : ℕ, gegP (2 * (l : ℝ) + 3 / 2) n ≠ 0 := fun l n h => by
    have := Geg.lead_gegP (α := 2 * (l : ℝ) + 3 / 2) (by positivity) n
    rw [h] at this
    simp at this
  have hw : (1 - Polynomial.X ^ 2 : ℝ[X]).natDegree = 2 := by
    rw [natDegree_sub_eq_right_of_natDegree_lt] <;> simp
  have hw0 : (1 - Polynomial.X ^ 2 : ℝ[X]) ≠ 0 := fun h => by rw [h] at hw; simp at hw
  unfold radP
  rw [natDegree_mul (mul_ne_zero (pow_ne_zero _ hw0) (hn _ _)) (hn _ _), natDegree_mul (pow_ne_zero _ hw0) (hn _ _), natDegree_pow, hw,
    hg]
  ring

/-! ### Basis functions -/

/-- The expansion with the single coefficient `(n, l, m)`. -/
def single (a : ℝ) (n l m : ℕ) (c s : ℝ) : Par :=
  ⟨a, n + 1, l + 1, m + 1, false, fun n' l' m' => if n' = n ∧ l' = l ∧ m' = m then c else 0,
    fun n' l' m' => if n' = n ∧ l' = l ∧ m' = m then s else 0, fun _ _ _ _ => 0, fun _ _ _ _ => 0⟩

theorem cosθ0 {R z : ℝ} (h : 0 < √(R ^ 2 + z ^ 2)) : cos (Coords.atan2 R z) = z / √(R ^ 2 + z ^ 2) := by
  have q := Coords.polar_cos z R
  rw [add_comm (z ^ 2)] at q
  field_simp
  linarith

theorem single_val {a : ℝ} (ha : 0 < a) {n l m : ℕ} (c s : ℝ) {R z : ℝ} (h : 0 < √(R ^ 2 + z ^ 2)) (φ t : ℝ) :
    ((raw (single a n l m c s)).scale (1 / 2)).val R z φ t
      = 1 / 2 * (fF a n l (√(R ^ 2 + z ^ 2)) * NN l m * (c * cos (m * φ) + s * sin (m * φ)) * alp l m (z / √(R ^ 2 + z ^ 2))) := by
  have e : (raw (single a n l m c s)).val R z φ t
      = fF a n l (√(R ^ 2 + z ^ 2)) * NN l m * (c * cos (m * φ) + s * sin (m * φ)) * alp l m (z / √(R ^ 2 + z ^ 2)) := by
    simp only [raw, evaluate, atPoint, Coords.cyl_to_spher, Par.sum_eq, cosθ0 h, PP]
    rw [Finset.sum_eq_single (n, l, m)]
    · rw [show (single a n l m c s).a = a from rfl, phiTilde_eq ha h l (by simp [single])]
      have ec : ((single a n l m c s).coef t).c n l m = c * NN l m := by simp [Par.coef, single]
      have es : ((single a n l m c s).coef t).s n l m = s * NN l m := by simp [Par.coef, single]
      rw [ec, es]
      ring
    · intro i _ hi
      have : ¬ (i.1 = n ∧ i.2.1 = l ∧ i.2.2 = m) := fun k => hi (by ext <;> simp [k.1, k.2.1, k.2.2])
      simp [Par.coef, single, this]
    · intro hi
      exact absurd (show (n, l, m) ∈ (single a n l m c s).idx by simp [Par.idx, single]) hi
  simp only [Pot.scale]
  rw [e]

/-- The energy of a basis function. -/
def enl (a : ℝ) (n l m : ℕ) : ℝ := Inl n l / (2 * a) * (if m = 0 then 1 / 2 else 1)

theorem enl_neg {a : ℝ} (ha : 0 < a) (n l m : ℕ) : enl a n l m < 0 := by
  have k := Knl_pos n l
  have h := Geg.H_pos (2 * l + 1) n
  unfold enl
  rw [Inl_eq]
  have : (0 : ℝ) < if m = 0 then 1 / 2 else 1 := by split_ifs <;> norm_num
  have q : 0 < Knl n l / 4 * 16 ^ (-(l : ℤ)) * Geg.H (2 * l + 1) n := by positivity
  have := mul_pos (div_pos q (by positivity : 0 < 2 * a)) this
  rw [neg_div, neg_mul]
  linarith

/-- The radial function at a particle. -/
theorem rad_particle {a : ℝ} (ha : 0 < a) {N n : ℕ} (hn : n < N) (l : ℕ) {r : ℝ} (hr : 0 < r) :
    -((r / a) ^ l) / (1 + r / a) ^ (2 * l + 1) * CC (RToxi r a) N n l = fF a n l r * a / √(4 * π) := by
  have hq := (sqrt_pos.2 (show 0 < 4 * π by positivity)).ne'
  rw [CC_eq _ _ hn, RToxi_eq ha hr]
  unfold fF g0 W al
  generalize gegS _ _ _ = G
  have h1 : 1 + r / a = (a + r) / a := by field_simp
  rw [h1, div_pow, div_pow, div_pow, mul_pow, ← pow_mul, pow_succ, pow_succ, pow_mul a, show a ^ 2 = a * a by ring, mul_pow]
  have : a + r ≠ 0 := by positivity
  field_simp

theorem pre_eq {l m : ℕ} (h : m ≤ l) :
    √((2 * (l : ℝ) + 1) * Gamma ((l : ℝ) - m + 1) / Gamma ((l : ℝ) + m + 1)) * (if m = 0 then 1 / 2 else 1) = NN l m * √π := by
  have hp := (sqrt_pos.2 pi_pos).ne'
  rw [NN_eq h, gsub h, gadd, mul_div_assoc]
  field_simp

theorem nbody_gen {a : ℝ} (ha : 0 < a) {N n l m : ℕ} (hn : n < N) (hm : m ≤ l) (trig : ℝ → ℝ) (c s : ℝ)
    (ht : ∀ x, trig x = c * cos x + s * sin x) (ps : List Particle) (hp : ∀ q ∈ ps, 0 < q.r) (t : ℝ) :
    nbodyFull trig ps N a n l m * enl a n l m
      = (ps.map fun q => q.m * ((raw (single a n l m c s)).scale (1 / 2)).val (√(q.x ^ 2 + q.y ^ 2)) q.z q.phi t).sum := by
  have s4 : √(4 * π) = 2 * √π := by
    rw [sqrt_mul (by norm_num), show (4 : ℝ) = 2 ^ 2 by norm_num, sqrt_sq two_pos.le]
  have hpi := (sqrt_pos.2 pi_pos).ne'
  have hI : Inl n l ≠ 0 := by
    have := (enl_neg ha n l 0).ne
    unfold enl at this
    intro h
    rw [h] at this
    simp at this
  unfold nbodyFull
  rw [if_neg (by omega)]
  simp only []
  rw [InlB_eq]
  have key : ∀ q ∈ ps, q.m * ((raw (single a n l m c s)).scale (1 / 2)).val (√(q.x ^ 2 + q.y ^ 2)) q.z q.phi t
      = (NN l m * √π / a) * (q.m * trig (q.phi * m) * phinlm N a n l m q) := fun q hq => by
    have hr := hp q hq
    have er : √(√(q.x ^ 2 + q.y ^ 2) ^ 2 + q.z ^ 2) = q.r := by
      rw [sq_sqrt (by positivity)]
      rfl
    rw [single_val ha c s (by rw [er]; exact hr), er, phinlm_eq _ _ hm, rad_particle ha hn l hr, ht, s4, mul_comm q.phi]
    unfold Particle.costheta
    field_simp
  have key' : (ps.map fun q => q.m * ((raw (single a n l m c s)).scale (1 / 2)).val (√(q.x ^ 2 + q.y ^ 2)) q.z q.phi t).sum
      = (NN l m * √π / a) * (ps.map fun q => q.m * trig (q.phi * m) * phinlm N a n l m q).sum := by
    rw [← List.sum_map_mul_left]
    congr 1
    exact List.map_congr_left key
  rw [key', ← pre_eq hm]
  unfold enl
  generalize √((2 * (l : ℝ) + 1) * Gamma ((l : ℝ) - m + 1) / Gamma ((l : ℝ) + m + 1)) = U
  generalize (ps.map fun q => q.m * trig (q.phi * m) * phinlm N a n l m q).sum = V
  field_simp

theorem dens_gen {a : ℝ} (ha : 0 < a) {N n l m : ℕ} (hn : n < N) (hm : m ≤ l) (trig : ℝ → ℝ) (c s : ℝ)
    (ht : ∀ x, trig x = c * cos x + s * sin x) (leg : ℕ → Rule) (dens : ℝ → ℝ → ℝ → ℝ) (L : ℕ) (ro co : Option ℕ)
    (in₁ : ∀ i < orderR N L ro, -1 < (leg (orderR N L ro)).x i ∧ (leg (orderR N L ro)).x i < 1)
    (in₂ : ∀ i < orderC L co, -1 < (leg (orderC L co)).x i ∧ (leg (orderC L co)).x i < 1) (t : ℝ) :
    coefFull leg trig dens N L a ro co n l m * enl a n l m
      = ∑ i ∈ range (orderR N L ro), ∑ j ∈ range (orderC L co), (leg (orderR N L ro)).w i * (leg (orderC L co)).w j *
        ∫ φ in (0 : ℝ)..(2 * π),
          let ξ := (leg (orderR N L ro)).x i;
          let x := (leg (orderC L co)).x j;
          let r := xiToR ξ a;
          dens (r * √(1 - x ^ 2)) (r * x) φ
            * ((raw (single a n l m c s)).scale (1 / 2)).val (r * √(1 - x ^ 2)) (r * x) φ t * (r ^ 2 * (2 * a / (1 - ξ) ^ 2)) := by
  have s4 : √(4 * π) = 2 * √π := by
    rw [sqrt_mul (by norm_num), show (4 : ℝ) = 2 ^ 2 by norm_num, sqrt_sq two_pos.le]
  have hpi := (sqrt_pos.2 pi_pos).ne'
  have hI : Inl n l ≠ 0 := by
    have := (enl_neg ha n l 0).ne
    unfold enl at this
    intro h
    rw [h] at this
    simp at this
  unfold coefFull quad3
  simp only []
  rw [quad2_eq]
  have e0 : ∀ S : ℝ, 2 * (Inl n l)⁻¹ * S * cFull l m * enl a n l m = S * (NN l m * √π / (4 ^ l * a)) := fun S => by
    rw [← pre_eq hm, cFull_eq hm, gsub hm, gadd, mul_div_assoc (2 * (l : ℝ) + 1)]
    unfold enl
    generalize √((2 * (l : ℝ) + 1) * ((l - m).factorial / (l + m).factorial)) = U
    generalize (if m = 0 then (1 / 2 : ℝ) else 1) = V
    field_simp
  rw [e0, Finset.sum_mul]
  refine Finset.sum_congr rfl fun i hi => ?_
  rw [Finset.sum_mul]
  refine Finset.sum_congr rfl fun j hj => ?_
  rw [mul_assoc, ← intervalIntegral.integral_mul_const]
  congr 1
  refine intervalIntegral.integral_congr fun φ _ => ?_
  obtain ⟨a1, a2⟩ := in₁ i (Finset.mem_range.1 hi)
  obtain ⟨b1, b2⟩ := in₂ j (Finset.mem_range.1 hj)
  beta_reduce
  show _ = dens _ _ _ * _ * _
  generalize (leg (orderR N L ro)).x i = ξ at *
  generalize (leg (orderC L co)).x j = x at *
  have hr := xiToR_pos ha a1 a2
  have hx : 0 ≤ 1 - x ^ 2 := by nlinarith
  have er : √((xiToR ξ a * √(1 - x ^ 2)) ^ 2 + (xiToR ξ a * x) ^ 2) = xiToR ξ a := by
    rw [mul_pow, sq_sqrt hx, show xiToR ξ a ^ 2 * (1 - x ^ 2) + (xiToR ξ a * x) ^ 2 = xiToR ξ a ^ 2 by ring, sqrt_sq hr.le]
  rw [single_val ha c s (by rw [er]; exact hr), er, ht, mul_div_cancel_left₀ _ hr.ne']
  have p1 : 1 + ξ ≠ 0 := by linarith
  have p2 : 1 - ξ ≠ 0 := by linarith
  have ea : a + xiToR ξ a = 2 * a / (1 - ξ) := by
    unfold xiToR
    field_simp
    ring
  have eW : W a l (xiToR ξ a) = (1 - ξ ^ 2) ^ l / 4 ^ l := by
    unfold W
    rw [ea, ← div_pow]
    congr 1
    unfold xiToR
    field_simp
    ring
  have eg : g0 a n l (xiToR ξ a) = geg (2 * (l : ℝ) + 3 / 2) ξ n := by
    unfold g0 al
    rw [xi_xiToR ha a2, Geg.s3]
  have eC : CC ξ N n l = geg (2 * (l : ℝ) + 3 / 2) ξ n := C_eq _ _ hn
  unfold fF dVol PP
  rw [eW, eg, eC, ea, s4, show (1 - ξ ^ 2) ^ l = (1 + ξ) ^ l * (1 - ξ) ^ l by rw [← mul_pow]; ring_nf, pow_succ (1 - ξ) l]
  generalize dens _ _ _ = D
  generalize geg _ _ _ = G
  generalize alp _ _ _ = A
  generalize c * cos _ + s * sin _ = T
  unfold xiToR
  field_simp
  try ring

/-! ### Batches -/

/-- The next accumulator. -/
def addTo (acc : Option Coef) (c : Coef) : Coef :=
  match acc with
  | Option.none => c
  | some d => ⟨fun n l m => d.c n l m + c.c n l m, fun n l m => d.s n l m + c.s n l m⟩

theorem nbodyCoef_append (s : Sym) (N : ℕ) (a : ℝ) (ps qs : List Particle) :
    nbodyCoef s (ps ++ qs) N a = addTo (some (nbodyCoef s ps N a)) (nbodyCoef s qs N a) := by
  cases s <;> simp only [nbodyCoef, addTo, Coef.mk.injEq] <;> refine ⟨?_, ?_⟩ <;> funext n l m
  · simp [nbodySpher]
    ring
  · simp
  · simp [nbodyAxi]
    ring
  · simp
  · unfold nbodyFull
    split_ifs
    · simp
    · simp
      ring
  · unfold nbodyFull
    split_ifs
    · simp
    · simp
      ring

theorem batchLoop_eq (f : List Particle → Coef) (hf : ∀ ps qs, f (ps ++ qs) = addTo (some (f ps)) (f qs)) (b : ℕ) (hb : 0 < b)
    (acc : Option Coef) (ps : List Particle) : batchLoop f b hb acc ps = if ps = [] then acc else some (addTo acc (f ps)) := by
  generalize hk : ps.length = k
  induction k using Nat.strong_induction_on generalizing acc ps with
  | _ k ih =>
    unfold batchLoop
    split_ifs with h
    · rfl
    · have hl := List.length_pos_iff.2 h
      simp only []
      rw [ih (ps.drop b).length (by rw [List.length_drop]; omega) _ _ rfl]
      show (if ps.drop b = [] then some (addTo acc (f (ps.take b))) else some (addTo (some (addTo acc (f (ps.take b)))) (f (ps.drop b))))
        = some (addTo acc (f ps))
      split_ifs with h2
      · have : ps.take b = ps := by
          have := List.take_append_drop b ps
          rw [h2, List.append_nil] at this
          exact this
        rw [this]
      · congr 1
        conv_rhs => rw [← List.take_append_drop b ps, hf]
        cases acc <;> simp [addTo, add_assoc]

theorem timeLoop_eq {α : Type} (g : ℝ → α) (b : ℕ) (hb : 0 < b) (ts : List ℝ) :
    timeLoop (fun ts => ts.map g) b hb ts = ts.map g := by
  generalize hk : ts.length = k
  induction k using Nat.strong_induction_on generalizing ts with
  | _ k ih =>
    unfold timeLoop
    split_ifs with h
    · rw [h]
      rfl
    · have hl := List.length_pos_iff.2 h
      rw [ih (ts.drop b).length (by rw [List.length_drop]; omega) _ rfl, ← List.map_append, List.take_append_drop]

end Verif.SCF
