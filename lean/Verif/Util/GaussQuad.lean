import Verif.Util.GegOrth
import Mathlib.LinearAlgebra.Lagrange

set_option autoImplicit false

/-! # Existence of Gauss-Legendre quadrature of every order -/

noncomputable section
open Polynomial Finset intervalIntegral MeasureTheory

namespace Verif.GaussQuad

/-- Legendre polynomials. -/
abbrev P (n : ℕ) : ℝ[X] := gegP (1 / 2) n

theorem deg_P (n : ℕ) : (P n).natDegree = n :=
  natDegree_eq_of_le_of_coeff_ne_zero (Geg.deg_gegP _ _) (Geg.lead_gegP (by norm_num) n).ne'

theorem P_ne (n : ℕ) : P n ≠ 0 := fun h => by
  have := Geg.lead_gegP (α := 1 / 2) (by norm_num) n
  rw [show gegP (1 / 2) n = 0 from h] at this
  simp at this

theorem pint (p : ℝ[X]) (a b : ℝ) : IntervalIntegrable (fun x => p.eval x) volume a b := p.continuous.intervalIntegrable _ _

theorem P_orth {n m : ℕ} (h : n ≠ m) : ∫ x in (-1 : ℝ)..1, (P n * P m).eval x = 0 := by
  have := Geg.orth 0 h
  simpa [Geg.eval_gegP] using this

/-- Orthogonal to all polynomials of lower degree. -/
theorem P_low (K : ℕ) (f : ℝ[X]) (d : ℕ) (hd : d < K) (hf : f.natDegree ≤ d) : ∫ x in (-1 : ℝ)..1, (P K * f).eval x = 0 := by
  induction d using Nat.strong_induction_on generalizing f with
  | _ d ih =>
    have l := (Geg.lead_gegP (α := 1 / 2) (by norm_num) d).ne'
    set c := f.coeff d / (P d).coeff d with hc
    set g := f - C c * P d with hg
    have e : f = g + C c * P d := by rw [hg]; ring
    have eg : ∫ x in (-1 : ℝ)..1, (P K * g).eval x = 0 := by
      have gd : g.natDegree ≤ d := by
        refine (natDegree_sub_le _ _).trans (max_le hf ?_)
        exact (natDegree_C_mul_le _ _).trans (Geg.deg_gegP _ _)
      have gc : g.coeff d = 0 := by
        rw [hg, coeff_sub, coeff_C_mul, hc, div_mul_cancel₀ _ l, sub_self]
      match d with
      | 0 =>
        have : g = 0 := by
          rw [eq_C_of_natDegree_le_zero gd, gc, C_0]
        simp [this]
      | d + 1 => exact ih d (by omega) g (by omega) (natDegree_le_pred gd gc)
    have e2 : ∀ x : ℝ, (P K * f).eval x = (P K * g).eval x + c * (P K * P d).eval x := fun x => by
      rw [e]
      simp only [eval_mul, eval_add, eval_C]
      ring
    simp only [e2]
    rw [intervalIntegral.integral_add (pint _ _ _) ((pint _ _ _).const_mul _), intervalIntegral.integral_const_mul, eg,
      P_orth (by omega)]
    ring

/-- After multiplication with the factors of some of its roots in the interval, a polynomial doesn't change sign there. -/
theorem signs (d : ℕ) (f : ℝ[X]) (h0 : f ≠ 0) (hd : f.natDegree ≤ d) :
    ∃ S : Finset ℝ, (∀ s ∈ S, f.eval s = 0 ∧ -1 < s ∧ s < 1) ∧
      ((∀ x ∈ Set.Ioo (-1 : ℝ) 1, 0 ≤ (f * ∏ s ∈ S, (X - C s)).eval x)
        ∨ ∀ x ∈ Set.Ioo (-1 : ℝ) 1, (f * ∏ s ∈ S, (X - C s)).eval x ≤ 0) := by
  induction d generalizing f with
  | zero =>
    refine ⟨∅, by simp, ?_⟩
    rw [eq_C_of_natDegree_le_zero hd]
    simp only [Finset.prod_empty, mul_one, eval_C]
    rcases le_total 0 (f.coeff 0) with h | h
    · exact Or.inl fun _ _ => h
    · exact Or.inr fun _ _ => h
  | succ d ih =>
    by_cases hr : ∃ r ∈ Set.Ioo (-1 : ℝ) 1, f.eval r = 0
    · obtain ⟨r, hr, e⟩ := hr
      obtain ⟨h, rfl⟩ := dvd_iff_isRoot.2 e
      have hh : h ≠ 0 := right_ne_zero_of_mul h0
      have hdh : h.natDegree ≤ d := by
        rw [natDegree_mul (X_sub_C_ne_zero r) hh, natDegree_X_sub_C] at hd
        omega
      obtain ⟨S, hS, sg⟩ := ih h hh hdh
      by_cases hm : r ∈ S
      · refine ⟨S.erase r, fun s hs => ?_, ?_⟩
        · have := hS s (Finset.mem_of_mem_erase hs)
          refine ⟨?_, this.2⟩
          rw [eval_mul, this.1, mul_zero]
        · have : (X - C r) * h * ∏ s ∈ S.erase r, (X - C s) = h * ∏ s ∈ S, (X - C s) := by
            rw [← Finset.mul_prod_erase S _ hm]
            ring
          rw [this]
          exact sg
      · refine ⟨insert r S, fun s hs => ?_, ?_⟩
        · rcases Finset.mem_insert.1 hs with rfl | hs
          · exact ⟨e, hr⟩
          · have := hS s hs
            refine ⟨?_, this.2⟩
            rw [eval_mul, this.1, mul_zero]
        · have : ∀ x, ((X - C r) * h * ∏ s ∈ insert r S, (X - C s)).eval x = (x - r) ^ 2 * (h * ∏ s ∈ S, (X - C s)).eval x := fun x => by
            rw [Finset.prod_insert hm]
            simp only [eval_mul, eval_sub, eval_X, eval_C]
            ring
          simp only [this]
          rcases sg with sg | sg
          · exact Or.inl fun x hx => mul_nonneg (sq_nonneg _) (sg x hx)
          · exact Or.inr fun x hx => mul_nonpos_of_nonneg_of_nonpos (sq_nonneg _) (sg x hx)
    · push Not at hr
      refine ⟨∅, by simp, ?_⟩
      simp only [Finset.prod_empty, mul_one]
      by_contra hc
      rw [not_or] at hc
      obtain ⟨c1, c2⟩ := hc
      push Not at c1 c2
      obtain ⟨x, hx, fx⟩ := c1
      obtain ⟨y, hy, fy⟩ := c2
      have hsub : Set.uIcc x y ⊆ Set.Ioo (-1 : ℝ) 1 := by
        intro u hu
        rw [Set.mem_uIcc] at hu
        rcases hu with hu | hu
        · exact ⟨lt_of_lt_of_le hx.1 hu.1, lt_of_le_of_lt hu.2 hy.2⟩
        · exact ⟨lt_of_lt_of_le hy.1 hu.1, lt_of_le_of_lt hu.2 hx.2⟩
      have := intermediate_value_uIcc (f := fun u => f.eval u) (a := x) (b := y) f.continuous.continuousOn
      obtain ⟨u, hu, e⟩ := this (show (0 : ℝ) ∈ _ from Set.mem_uIcc.2 (Or.inl ⟨fx.le, fy.le⟩))
      exact hr u (hsub hu) e

theorem ext_Icc {f : ℝ[X]} (h : ∀ x ∈ Set.Ioo (-1 : ℝ) 1, 0 ≤ f.eval x) : ∀ x ∈ Set.Icc (-1 : ℝ) 1, 0 ≤ f.eval x := by
  have c : IsClosed {x : ℝ | 0 ≤ f.eval x} := isClosed_le continuous_const f.continuous
  have := closure_minimal (show Set.Ioo (-1 : ℝ) 1 ⊆ _ from h) c
  rw [closure_Ioo (by norm_num)] at this
  exact this

/-- A non-zero polynomial without sign changes has a positive integral. -/
theorem int_pos {f : ℝ[X]} (h0 : f ≠ 0) (h : ∀ x ∈ Set.Ioo (-1 : ℝ) 1, 0 ≤ f.eval x) : 0 < ∫ x in (-1 : ℝ)..1, f.eval x := by
  refine integral_pos (by norm_num) f.continuous.continuousOn (fun x hx => ext_Icc h x ⟨hx.1.le, hx.2⟩) ?_
  by_contra hc
  push Not at hc
  have z : ∀ x ∈ Set.Icc (-1 : ℝ) 1, f.eval x = 0 := fun x hx => le_antisymm (hc x hx) (ext_Icc h x hx)
  exact h0 (eq_zero_of_infinite_isRoot f ((Set.Icc_infinite (by norm_num : (-1 : ℝ) < 1)).mono z))

/-- The Legendre polynomial of degree `K` has `K` different roots inside of the interval. -/
theorem roots (K : ℕ) : ∃ S : Finset ℝ, S.card = K ∧ ∀ s ∈ S, (P K).eval s = 0 ∧ -1 < s ∧ s < 1 := by
  obtain ⟨S, hS, sg⟩ := signs K (P K) (P_ne K) (Geg.deg_gegP _ _)
  refine ⟨S, le_antisymm ?_ ?_, hS⟩
  · have hsub : S ⊆ (P K).roots.toFinset := fun s hs => by
      rw [Multiset.mem_toFinset, mem_roots (P_ne K)]
      exact (hS s hs).1
    calc S.card ≤ (P K).roots.toFinset.card := Finset.card_le_card hsub
      _ ≤ Multiset.card (P K).roots := Multiset.toFinset_card_le _
      _ ≤ (P K).natDegree := card_roots' _
      _ = K := deg_P K
  · by_contra hc
    push Not at hc
    have hm : (∏ s ∈ S, (X - C s)).Monic := monic_prod_of_monic _ _ fun s _ => monic_X_sub_C s
    have hdeg : (∏ s ∈ S, (X - C s) : ℝ[X]).natDegree = S.card := by
      rw [natDegree_prod_of_monic _ _ fun s _ => monic_X_sub_C s]
      simp
    have z := P_low K (∏ s ∈ S, (X - C s)) S.card hc hdeg.le
    have ne : P K * ∏ s ∈ S, (X - C s) ≠ 0 := mul_ne_zero (P_ne K) hm.ne_zero
    rcases sg with sg | sg
    · exact (int_pos ne sg).ne' z
    · have := int_pos (f := -(P K * ∏ s ∈ S, (X - C s))) (neg_ne_zero.2 ne) fun x hx => by
        rw [eval_neg]
        have := sg x hx
        linarith
      simp only [eval_neg, intervalIntegral.integral_neg, z] at this
      simp at this

/-- Gauss-Legendre quadrature. -/
theorem exists_rule (K : ℕ) : ∃ x w : ℕ → ℝ, (∀ i < K, -1 < x i ∧ x i < 1) ∧
    ∀ p : ℝ[X], p.natDegree < 2 * K → ∑ i ∈ range K, w i * p.eval (x i) = ∫ t in (-1 : ℝ)..1, p.eval t := by
  obtain ⟨S, hc, hS⟩ := roots K
  let x : ℕ → ℝ := fun i => if h : i < K then (S.equivFin.symm ⟨i, by omega⟩ : ℝ) else 0
  have hx : ∀ i < K, x i ∈ S := fun i h => by
    simp only [x, dif_pos h]
    exact (S.equivFin.symm _).2
  have inj : Set.InjOn x (range K : Finset ℕ) := by
    intro i hi j hj e
    have hi := Finset.mem_range.1 (Finset.mem_coe.1 hi)
    have hj := Finset.mem_range.1 (Finset.mem_coe.1 hj)
    simp only [x, dif_pos hi, dif_pos hj] at e
    have := S.equivFin.symm.injective (Subtype.ext e)
    simpa using this
  refine ⟨x, fun i => ∫ t in (-1 : ℝ)..1, (Lagrange.basis (range K) x i).eval t, fun i hi => (hS _ (hx i hi)).2, fun p hp => ?_⟩
  have hdiv := EuclideanDomain.div_add_mod p (P K)
  set u := p / P K with hu
  set v := p % P K with hv
  have vdeg : v.degree < (K : ℕ) := by
    have := EuclideanDomain.mod_lt p (P_ne K)
    have e : (P K).degree = (K : ℕ) := by rw [degree_eq_natDegree (P_ne K), deg_P]
    rw [← e]
    exact this
  have iv : v = Lagrange.interpolate (range K) x fun i => v.eval (x i) := Lagrange.eq_interpolate inj (by simpa using vdeg)
  have ev : ∀ i ∈ range K, p.eval (x i) = v.eval (x i) := fun i hi => by
    rw [← hdiv, eval_add, eval_mul, (hS _ (hx i (Finset.mem_range.1 hi))).1]
    ring
  have e1 : ∫ t in (-1 : ℝ)..1, v.eval t
      = ∑ i ∈ range K, (∫ t in (-1 : ℝ)..1, (Lagrange.basis (range K) x i).eval t) * v.eval (x i) := by
    conv_lhs => rw [iv]
    simp only [Lagrange.interpolate_apply, eval_finsetSum, eval_mul, eval_C]
    rw [intervalIntegral.integral_finsetSum fun i _ => (pint _ _ _).const_mul _]
    simp only [intervalIntegral.integral_const_mul]
    exact Finset.sum_congr rfl fun i _ => mul_comm _ _
  have e2 : ∫ t in (-1 : ℝ)..1, (P K * u).eval t = 0 := by
    by_cases hu0 : u = 0
    · simp [hu0]
    · refine P_low K u u.natDegree ?_ le_rfl
      by_contra hK
      push Not at hK
      have hvn : v.natDegree < (P K * u).natDegree ∨ v = 0 := by
        by_cases hv0 : v = 0
        · exact Or.inr hv0
        · left
          rw [natDegree_mul (P_ne K) hu0, deg_P]
          have := (natDegree_lt_iff_degree_lt hv0).2 vdeg
          omega
      have : p.natDegree = K + u.natDegree := by
        rw [← hdiv]
        rcases hvn with h | h
        · rw [natDegree_add_eq_left_of_natDegree_lt h, natDegree_mul (P_ne K) hu0, deg_P]
        · rw [h, add_zero, natDegree_mul (P_ne K) hu0, deg_P]
      omega
  rw [Finset.sum_congr rfl fun i hi => by rw [ev i hi], ← e1]
  have e3 : ∀ t : ℝ, p.eval t = (P K * u).eval t + v.eval t := fun t => by
    conv_lhs => rw [← hdiv]
    rw [eval_add]
  simp only [e3]
  rw [intervalIntegral.integral_add (pint _ _ _) (pint _ _ _), e2, zero_add]

end Verif.GaussQuad
