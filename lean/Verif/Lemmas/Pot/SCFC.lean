import Verif.Model.Pot.SCFC
import Verif.Lemmas.Pot.SCF
import Verif.Lemmas.Pot.Ops

set_option autoImplicit false

/-! # Lemmas for the C version of SCFPotential -/

noncomputable section
open Real Finset Filter Topology

namespace Verif.SCF

/-! ### Arrays -/

theorem ci_lt {N L M n l m : ℕ} (hn : n < N) (hl : l < L) (hm : m < M) : n * L * M + l * M + m < N * L * M := by
  have h1 : l * M + m < L * M := by
    have : (l + 1) * M ≤ L * M := Nat.mul_le_mul_right M hl
    nlinarith
  have h2 : (n + 1) * (L * M) ≤ N * (L * M) := Nat.mul_le_mul_right _ hn
  have e : n * L * M = n * (L * M) := Nat.mul_assoc _ _ _
  have e' : N * L * M = N * (L * M) := Nat.mul_assoc _ _ _
  rw [e, e']
  nlinarith

theorem flat_eq {L M n l m : ℕ} (f : ℕ → ℕ → ℕ → ℝ) (hl : l < L) (hm : m < M) :
    flat L M f (n * L * M + l * M + m) = f n l m := by
  have hM : 0 < M := by omega
  have hL : 0 < L := by omega
  have h1 : l * M + m < L * M := by
    have : (l + 1) * M ≤ L * M := Nat.mul_le_mul_right M hl
    nlinarith
  have e1 : (n * L * M + l * M + m) / (L * M) = n := by
    rw [show n * L * M + l * M + m = (l * M + m) + (L * M) * n by ring, Nat.add_mul_div_left _ _ (by positivity),
      Nat.div_eq_of_lt h1, zero_add]
  have e2 : (n * L * M + l * M + m) / M = l + L * n := by
    rw [show n * L * M + l * M + m = m + M * (l + L * n) by ring, Nat.add_mul_div_left _ _ hM, Nat.div_eq_of_lt hm, zero_add]
  have e3 : (n * L * M + l * M + m) % M = m := by
    rw [show n * L * M + l * M + m = m + M * (l + L * n) by ring, Nat.add_mul_mod_self_left, Nat.mod_eq_of_lt hm]
  unfold flat
  rw [e1, e2, e3, Nat.add_mul_mod_self_left, Nat.mod_eq_of_lt hl]

theorem flatT_eq {K i ci k : ℕ} (c : ℕ → ℕ → ℕ → ℝ) (hk : k < 4) (hc : ci < K) :
    flatT K c ((i * K + ci) * 4 + k) = c k i ci := by
  have e1 : ((i * K + ci) * 4 + k) / 4 = i * K + ci := by omega
  have e2 : ((i * K + ci) * 4 + k) % 4 = k := by omega
  have hK : 0 < K := by omega
  unfold flatT
  rw [e1, e2, show i * K + ci = ci + K * i by ring, Nat.add_mul_div_left _ _ hK, Nat.div_eq_of_lt hc, zero_add,
    Nat.add_mul_mod_self_left, Nat.mod_eq_of_lt hc]

/-! ### The time interval -/

/-- `i` is the interval of `t`: the one containing it, the first or the last one for times outside. -/
def Interval (tgrid : ℕ → ℝ) (Nt : ℕ) (t : ℝ) (i : ℕ) : Prop :=
  i ≤ Nt - 2 ∧ (i = 0 ∨ tgrid i ≤ t) ∧ (i = Nt - 2 ∨ t < tgrid (i + 1))

theorem bisect_spec (tgrid : ℕ → ℝ) (t : ℝ) (top lo hi : ℕ) (h : lo ≤ hi) (hh : hi ≤ top) (h1 : lo = 0 ∨ tgrid lo ≤ t)
    (h2 : hi = top ∨ t < tgrid (hi + 1)) :
    let i := bisect tgrid t lo hi
    i ≤ top ∧ (i = 0 ∨ tgrid i ≤ t) ∧ (i = top ∨ t < tgrid (i + 1)) := by
  induction lo, hi using bisect.induct (tgrid := tgrid) (t := t) with
  | case1 lo hi hlt hc ih =>
    rw [bisect, dif_pos hlt, if_pos hc]
    exact ih (by omega) hh (Or.inr hc) h2
  | case2 lo hi hlt hc ih =>
    rw [bisect, dif_pos hlt, if_neg hc]
    refine ih (by omega) (by omega) h1 (Or.inr ?_)
    have : (lo + hi + 1) / 2 - 1 + 1 = (lo + hi + 1) / 2 := by omega
    rw [this]
    exact not_le.1 hc
  | case3 lo hi hlt =>
    rw [bisect, dif_neg hlt]
    have : lo = hi := by omega
    subst this
    exact ⟨hh, h1, h2⟩

theorem findInterval_spec {tgrid : ℕ → ℝ} {Nt : ℕ} (h2 : 2 ≤ Nt) (hm : ∀ i j, i < j → j < Nt → tgrid i < tgrid j) (t : ℝ) :
    Interval tgrid Nt t (findInterval tgrid Nt t) := by
  unfold findInterval
  split_ifs with a b
  · refine ⟨Nat.zero_le _, Or.inl rfl, ?_⟩
    by_cases h : 0 = Nt - 2
    · exact Or.inl h
    · exact Or.inr (a.trans_lt (hm 0 (0 + 1) (by omega) (by omega)))
  · refine ⟨le_rfl, ?_, Or.inl rfl⟩
    exact Or.inr ((hm (Nt - 2) (Nt - 1) (by omega) (by omega)).le.trans b)
  · exact bisect_spec tgrid t (Nt - 2) 0 (Nt - 2) (Nat.zero_le _) le_rfl (Or.inl rfl) (Or.inl rfl)

/-- The splines of a time-dependent potential are given by the coefficients: piecewise polynomials, continued outside the grid by
the first and the last one. -/
structure Spl.Is (s : Spl) (p : Par) : Prop where
  two : 2 ≤ s.Nt
  mono : ∀ i j, i < j → j < s.Nt → s.tgrid i < s.tgrid j
  c : ∀ t i n l m, Interval s.tgrid s.Nt t i → n < p.N → l < p.L → m < p.M →
    p.Ic t n l m = ∑ k ∈ range 4, s.cc k i ((n * p.L + l) * p.M + m) * (t - s.tgrid i) ^ (3 - k)
  s : ∀ t i n l m, Interval s.tgrid s.Nt t i → n < p.N → l < p.L → m < p.M →
    p.Is t n l m = ∑ k ∈ range 4, s.cs k i ((n * p.L + l) * p.M + m) * (t - s.tgrid i) ^ (3 - k)

theorem interp_eq {K i ci : ℕ} (amp dt : ℝ) (c : ℕ → ℕ → ℕ → ℝ) (hc : ci < K) :
    interpC (fun j => amp * flatT K c j) K i dt ci = amp * ∑ k ∈ range 4, c k i ci * dt ^ (3 - k) := by
  have h0 := flatT_eq (i := i) c (show 0 < 4 by norm_num) hc
  have h1 := flatT_eq (i := i) c (show 1 < 4 by norm_num) hc
  have h2 := flatT_eq (i := i) c (show 2 < 4 by norm_num) hc
  have h3 := flatT_eq (i := i) c (show 3 < 4 by norm_num) hc
  unfold interpC
  simp only [h0, h1, h2, h3, Finset.sum_range_succ, Finset.sum_range_zero]
  ring

variable {p : Par} {ax : Bool} {s : Spl}

theorem coefC_eq (amp t : ℝ) (hs : p.tdep = true → s.Is p) {n l m : ℕ} (hn : n < p.N) (hl : l < p.L) (hm : m < p.M) :
    (coefC (parse p ax amp s) t).1 (n * p.L * p.M + l * p.M + m) = amp * (p.coef t).c n l m
    ∧ (coefC (parse p ax amp s) t).2 (n * p.L * p.M + l * p.M + m) = amp * (p.coef t).s n l m := by
  by_cases ht : p.tdep = true
  · have h := hs ht
    have h2 := h.two
    have e : n * p.L * p.M + l * p.M + m = (n * p.L + l) * p.M + m := by ring
    have hi := findInterval_spec h.two h.mono t
    have hN : 0 < s.Nt := by omega
    simp only [coefC, parse, if_pos ht, if_pos hN, Par.coef]
    rw [interp_eq _ _ _ (ci_lt hn hl hm), interp_eq _ _ _ (ci_lt hn hl hm), h.c t _ n l m hi hn hl hm, h.s t _ n l m hi hn hl hm, e]
    exact ⟨rfl, rfl⟩
  · simp only [coefC, parse, if_neg ht, lt_irrefl, if_false, flat_eq _ hl hm]
    simp [Par.coef, ht]

/-! ### Radial functions -/

theorem rterm_eq (i f : ℝ) (l : ℕ) : rterm i f l = i * f ^ l := by
  induction l with
  | zero => simp [rterm]
  | succ l ih => rw [rterm, ih, pow_succ]; ring

theorem cC_eq (x : ℝ) (n l : ℕ) : cC x n l = gegS (al l) x (n + 3) := by
  unfold cC al
  rw [show (1.5 : ℝ) + 2 * l = 2 * l + 3 / 2 by norm_num; ring]
  rfl

theorem cdC_eq (x : ℝ) (n l : ℕ) : cdC x n l = 2 * al l * gegS (al l + 1) x (n + 2) := by
  unfold cdC al
  match n with
  | 0 => simp [gegS]
  | n + 1 =>
    rw [if_neg (Nat.succ_ne_zero n), Nat.add_sub_cancel, show (2.5 : ℝ) + 2 * l = 2 * l + 3 / 2 + 1 by norm_num; ring,
      show gegS (2 * (l : ℝ) + 3 / 2 + 1) x (n + 1 + 2) = geg (2 * l + 3 / 2 + 1) x n from rfl]
    norm_num
    ring

theorem cd2C_eq (x : ℝ) (n l : ℕ) : cd2C x n l = 4 * al l * (al l + 1) * gegS (al l + 2) x (n + 1) := by
  unfold cd2C al
  match n with
  | 0 => simp [gegS]
  | 1 => simp [gegS]
  | n + 2 =>
    rw [if_neg (by omega), if_neg (by omega), Nat.add_sub_cancel, show (3.5 : ℝ) + 2 * l = 2 * l + 3 / 2 + 2 by norm_num; ring,
      show gegS (2 * (l : ℝ) + 3 / 2 + 2) x (n + 2 + 1) = geg (2 * l + 3 / 2 + 2) x n from rfl]
    norm_num
    ring

variable {a r : ℝ}

theorem phiC_eq (ha : 0 < a) (hr : 0 < r) (n l : ℕ) : s4 * phiC a r n l = fF a n l r := by
  have hs : a + r ≠ 0 := by positivity
  unfold phiC fF W g0 s4
  rw [rterm_eq, cC_eq, show r * a / ((a + r) * (a + r)) = a * r / (a + r) ^ 2 by rw [mul_comm r a, pow_two], add_comm r a]
  unfold xiC
  rw [add_comm r a]
  ring

theorem dphiC_eq (ha : 0 < a) (hr : 0 < r) (n l : ℕ) : s4 * dphiC a r n l = fF1 a n l r := by
  have hs : a + r ≠ 0 := by positivity
  unfold dphiC fF1 W g0 g1 s4
  simp only []
  rw [rterm_eq, cC_eq, cdC_eq, show a * r / ((a + r) * (a + r)) = a * r / (a + r) ^ 2 by rw [pow_two]]
  unfold xiC
  generalize gegS _ _ (n + 3) = G
  generalize gegS _ _ (n + 2) = G'
  generalize (a * r / (a + r) ^ 2) ^ l = w
  generalize √(4 * π) = q
  field_simp
  ring

theorem d2phiC_eq (ha : 0 < a) (hr : 0 < r) (n l : ℕ) : s4 * d2phiC a r n l = fF2 a n l r := by
  have hs : a + r ≠ 0 := by positivity
  unfold d2phiC fF2 W g0 g1 g2 s4
  simp only []
  rw [rterm_eq, cC_eq, cdC_eq, cd2C_eq, show a * r / ((a + r) * (a + r)) = a * r / (a + r) ^ 2 by rw [pow_two]]
  unfold xiC
  generalize gegS _ _ (n + 3) = G
  generalize gegS _ _ (n + 2) = G'
  generalize gegS _ _ (n + 1) = G''
  generalize (a * r / (a + r) ^ 2) ^ l = w
  generalize √(4 * π) = q
  field_simp

theorem rhoC_eq (ha : 0 < a) (hr : 0 < r) (n l : ℕ) : s4 * rhoC a r n l / (2 * π) = fRho a n l r := by
  have hs : 0 < a + r := by positivity
  have hp := sqrt_pos.2 pi_pos
  have e1 : √(4 * π) = 2 * √π := by
    rw [show (4 : ℝ) * π = 2 ^ 2 * π by ring, sqrt_mul (by norm_num), sqrt_sq (by norm_num)]
  have e2 : 2 * π = 2 * √π ^ 2 := by rw [sq_sqrt pi_pos.le]
  have e3 : (a + r) ^ (-3 : ℝ) = ((a + r) ^ 3)⁻¹ := by
    rw [rpow_neg hs.le]
    norm_num
  unfold rhoC fRho W g0 s4
  simp only []
  rw [rterm_eq, cC_eq, show r * a / ((a + r) * (a + r)) = a * r / (a + r) ^ 2 by rw [mul_comm r a, pow_two], add_comm r a, e1, e2, e3]
  unfold xiC
  rw [add_comm r a]
  generalize gegS _ _ (n + 3) = G
  generalize (a * r / (a + r) ^ 2) ^ l = w
  generalize √π = q at *
  field_simp
  norm_num
  ring

/-! ### Sums -/

/-- What the constructor guarantees: square arrays unless the potential is axisymmetric, else no coefficients of `m > 0`. -/
structure Built (p : Par) (ax : Bool) : Prop where
  square : ax = true → p.M = p.L
  pos : ax = false → p.L = 0 ∨ 0 < p.M
  axi : ax = false → ∀ t n l m, n < p.N → l < p.L → m < p.M → 0 < m → (p.coef t).c n l m = 0 ∧ (p.coef t).s n l m = 0

theorem sumC_eq (b : Built p ax) (hs : p.tdep = true → s.Is p) (amp t φ : ℝ) (f : ℕ → ℕ → ℕ → ℝ → ℝ → ℝ)
    (h1 : ∀ n l m x y, l < m → f n l m x y = 0) (h2 : ∀ n l m, f n l m 0 0 = 0)
    (h3 : ∀ n l x y, f n l 0 x y = f n l 0 x 0) :
    sumC (parse p ax amp s) (coefC (parse p ax amp s) t) φ f = ∑ i ∈ p.idx, f i.1 i.2.1 i.2.2
      (amp * ((p.coef t).c i.1 i.2.1 i.2.2 * cos (i.2.2 * φ) + (p.coef t).s i.1 i.2.1 i.2.2 * sin (i.2.2 * φ)))
      (amp * ((p.coef t).c i.1 i.2.1 i.2.2 * sin (i.2.2 * φ) - (p.coef t).s i.1 i.2.1 i.2.2 * cos (i.2.2 * φ))) := by
  have hN : (parse p ax amp s).N = p.N := by unfold parse; split_ifs <;> rfl
  have hL : (parse p ax amp s).L = p.L := by unfold parse; split_ifs <;> rfl
  have hM : (parse p ax amp s).M = p.M := by unfold parse; split_ifs <;> rfl
  have hA : (parse p ax amp s).isNonAxi = ax := by unfold parse; split_ifs <;> rfl
  rw [← Par.sum_eq p fun n l m => f n l m (amp * ((p.coef t).c n l m * cos (m * φ) + (p.coef t).s n l m * sin (m * φ)))
    (amp * ((p.coef t).c n l m * sin (m * φ) - (p.coef t).s n l m * cos (m * φ)))]
  unfold sumC Par.sum
  rw [hN, hL, hM, hA]
  split_ifs with hx
  · rw [Finset.sum_comm]
    refine Finset.sum_congr rfl fun l hl => ?_
    rw [Finset.sum_comm]
    have hl' := Finset.mem_range.1 hl
    have hsub : range (l + 1) ⊆ range p.M := by
      rw [b.square hx]
      exact Finset.range_subset_range.2 hl'
    refine Finset.sum_congr rfl fun n hn => ?_
    have hn' := Finset.mem_range.1 hn
    rw [← Finset.sum_subset hsub]
    · refine Finset.sum_congr rfl fun m hm => ?_
      obtain ⟨e1, e2⟩ := coefC_eq (ax := ax) amp t hs hn' hl' (Finset.mem_range.1 (hsub hm))
      simp only [e1, e2]
      congr 1 <;> ring
    · intro m _ hm
      refine h1 _ _ _ _ _ ?_
      rw [Finset.mem_range] at hm
      omega
  · have hx' : ax = false := by simpa using hx
    rw [Finset.sum_comm]
    refine Finset.sum_congr rfl fun n hn => Finset.sum_congr rfl fun l hl => ?_
    have hn' := Finset.mem_range.1 hn
    have hl' := Finset.mem_range.1 hl
    have hM0 : 0 < p.M := (b.pos hx').resolve_left (by omega)
    rw [Finset.sum_eq_single 0]
    · have e1 := (coefC_eq (ax := ax) amp t hs hn' hl' hM0).1
      rw [add_zero] at e1
      simp only [e1, Nat.cast_zero, zero_mul, cos_zero, sin_zero, mul_one, mul_zero, add_zero]
      rw [h3 n l _ (amp * _)]
    · intro m hm h0
      obtain ⟨e1, e2⟩ := b.axi hx' t n l m hn' hl' (Finset.mem_range.1 hm) (Nat.pos_of_ne_zero h0)
      simp only [e1, e2, zero_mul, add_zero, sub_zero, mul_zero]
      exact h2 _ _ _
    · intro h
      exact absurd (Finset.mem_range.2 hM0) h

/-! ### The C functions are those of the sum of terms -/

theorem alp_zero {l m : ℕ} (h : l < m) (x : ℝ) : alp l m x = 0 := by
  have : alp l m x = (-1) ^ m * √(1 - x ^ 2) ^ m * Leg.q l m x := rfl
  rw [this, Leg.q_zero h, mul_zero]

theorem deriv_alp_zero {l m : ℕ} (h : l < m) (x : ℝ) : deriv (alp l m) x = 0 := by
  have : alp l m = fun _ => 0 := funext fun x => alp_zero h x
  rw [this]
  simp

theorem dPthC_zero {l m : ℕ} (h : l < m) (θ : ℝ) : dPthC θ l m = 0 := by simp [dPthC, deriv_alp_zero h]
theorem d2PthC_zero {l m : ℕ} (h : l < m) (θ : ℝ) : d2PthC θ l m = 0 := by simp [d2PthC, deriv_alp_zero h, alp_zero h]

section
variable {R z : ℝ}

theorem dPthC_eq (hR : 0 < R) (l m : ℕ) :
    dPthC (Coords.atan2 R z) l m = -(R / √(R ^ 2 + z ^ 2)) * Leg.alp1 l m (z / √(R ^ 2 + z ^ 2)) := by
  rw [dPthC, cosθ hR, sinθ hR, Leg.deriv_alp _ _ (SHTerm.x_lt hR)]

theorem d2PthC_eq (hR : 0 < R) (l m : ℕ) : d2PthC (Coords.atan2 R z) l m
    = Leg.alp2 l m (z / √(R ^ 2 + z ^ 2)) * (R / √(R ^ 2 + z ^ 2)) ^ 2
      - Leg.alp1 l m (z / √(R ^ 2 + z ^ 2)) * (z / √(R ^ 2 + z ^ 2)) := by
  have hx := SHTerm.x_lt (z := z) hR
  have o := Leg.alp_ode l m hx
  have e : (R / √(R ^ 2 + z ^ 2)) ^ 2 = 1 - (z / √(R ^ 2 + z ^ 2)) ^ 2 := by
    have := SHTerm.u_pos (z := z) hR
    rw [div_pow, div_pow, SHTerm.w_sq hR]
    field_simp
    ring
  have hp : 1 - (z / √(R ^ 2 + z ^ 2)) ^ 2 ≠ 0 := by linarith
  have em : (if m ≠ 0 then m * m * (1 / (R / √(R ^ 2 + z ^ 2) * (R / √(R ^ 2 + z ^ 2)))) * alp l m (z / √(R ^ 2 + z ^ 2)) else 0)
      = (m : ℝ) ^ 2 / (1 - (z / √(R ^ 2 + z ^ 2)) ^ 2) * alp l m (z / √(R ^ 2 + z ^ 2)) := by
    rw [← pow_two (R / _), e]
    split_ifs with h
    · field_simp
    · simp only [ne_eq, not_not] at h
      simp [h]
  rw [d2PthC, cosθ hR, sinθ hR, Leg.deriv_alp _ _ hx, em, e]
  linear_combination -o

/-- The C functions as a record. -/
def cPot (d : CArgs) : Pot where
  val := evalC d
  Rforce := fun R z φ t => (callC d .init .Rforce R z φ t).2
  zforce := fun R z φ t => (callC d .init .zforce R z φ t).2
  phitorque := fun R z φ t => (callC d .init .phitorque R z φ t).2
  R2deriv := fun R z φ t => (hessC d R z φ t).R2
  z2deriv := fun R z φ t => (hessC d R z φ t).z2
  Rzderiv := fun R z φ t => (hessC d R z φ t).Rz
  phi2deriv := fun R z φ t => (hessC d R z φ t).phi2
  Rphideriv := fun R z φ t => (hessC d R z φ t).Rphi
  phizderiv := fun R z φ t => (hessC d R z φ t).zphi
  dens := densC d

theorem parse_a (amp : ℝ) : (parse p ax amp s).a = p.a := by unfold parse; split_ifs <;> rfl

theorem sq_eq : R * R + z * z = R ^ 2 + z ^ 2 := by ring

theorem evalC_eq (b : Built p ax) (hs : p.tdep = true → s.Is p) (amp φ t : ℝ) (ha : 0 < p.a) (hR : 0 < R) :
    evalC (parse p ax amp s) R z φ t = amp * (Q p).val R z φ t := by
  have hw := SHTerm.w_pos (z := z) hR
  unfold evalC
  simp only []
  rw [sumC_eq b hs]
  · simp only [Q, Pot.fsum, SHTerm.pot, sq_eq, cosθ hR, parse_a, Finset.sum_mul, Finset.mul_sum]
    refine Finset.sum_congr rfl fun i _ => ?_
    simp only [term]
    rw [← phiC_eq ha hw]
    ring
  · intro n l m x y h; simp [alp_zero h]
  · intros; simp
  · intros; rfl

theorem densC_eq (b : Built p ax) (hs : p.tdep = true → s.Is p) (amp φ t : ℝ) (ha : 0 < p.a) (hR : 0 < R) :
    densC (parse p ax amp s) R z φ t = amp * (Q p).dens R z φ t := by
  have hw := SHTerm.w_pos (z := z) hR
  unfold densC
  simp only []
  rw [sumC_eq b hs]
  · simp only [Q, Pot.fsum, SHTerm.pot, sq_eq, cosθ hR, parse_a, Finset.sum_mul, Finset.mul_sum, Finset.sum_div]
    refine Finset.sum_congr rfl fun i _ => ?_
    simp only [term]
    rw [← rhoC_eq ha hw]
    ring
  · intro n l m x y h; simp [alp_zero h]
  · intros; simp
  · intros; rfl

/-- Value of the sum of terms with given functions of the index. -/
def tsum (p : Par) (t φ : ℝ) (f : ℕ → ℕ → ℕ → ℝ) : ℝ :=
  ∑ i ∈ p.idx, ((p.coef t).c i.1 i.2.1 i.2.2 * cos (i.2.2 * φ) + (p.coef t).s i.1 i.2.1 i.2.2 * sin (i.2.2 * φ)) * f i.1 i.2.1 i.2.2

/-- The same with the derivative in azimuth. -/
def tsum' (p : Par) (t φ : ℝ) (f : ℕ → ℕ → ℕ → ℝ) : ℝ :=
  ∑ i ∈ p.idx, (i.2.2 * ((p.coef t).s i.1 i.2.1 i.2.2 * cos (i.2.2 * φ) - (p.coef t).c i.1 i.2.1 i.2.2 * sin (i.2.2 * φ)))
    * f i.1 i.2.1 i.2.2

theorem sumA (b : Built p ax) (hs : p.tdep = true → s.Is p) (amp φ t : ℝ) (A : ℕ → ℕ → ℝ) (F : ℕ → ℕ → ℝ)
    (hA : ∀ l m, l < m → A l m = 0) :
    sumC (parse p ax amp s) (coefC (parse p ax amp s) t) φ (fun n l m cs _ => cs * A l m * F n l)
      = amp * tsum p t φ fun n l m => A l m * F n l := by
  rw [sumC_eq b hs]
  · unfold tsum
    rw [Finset.mul_sum]
    refine Finset.sum_congr rfl fun i _ => ?_
    ring
  · intro n l m x y h; simp [hA l m h]
  · intros; simp
  · intros; rfl

theorem sumAm (b : Built p ax) (hs : p.tdep = true → s.Is p) (amp φ t : ℝ) (A : ℕ → ℕ → ℝ) (F : ℕ → ℕ → ℝ)
    (hA : ∀ l m, l < m → A l m = 0) :
    sumC (parse p ax amp s) (coefC (parse p ax amp s) t) φ (fun n l m cs _ => m * m * cs * A l m * F n l)
      = amp * tsum p t φ fun n l m => m * m * A l m * F n l := by
  rw [sumC_eq b hs]
  · unfold tsum
    rw [Finset.mul_sum]
    refine Finset.sum_congr rfl fun i _ => ?_
    ring
  · intro n l m x y h; simp [hA l m h]
  · intros; simp
  · intros; rfl

theorem sumB (b : Built p ax) (hs : p.tdep = true → s.Is p) (amp φ t : ℝ) (A : ℕ → ℕ → ℝ) (F : ℕ → ℕ → ℝ)
    (hA : ∀ l m, l < m → A l m = 0) :
    sumC (parse p ax amp s) (coefC (parse p ax amp s) t) φ (fun n l m _ sd => m * sd * A l m * F n l)
      = -(amp * tsum' p t φ fun n l m => A l m * F n l) := by
  rw [sumC_eq b hs]
  · unfold tsum'
    rw [Finset.mul_sum, ← Finset.sum_neg_distrib]
    refine Finset.sum_congr rfl fun i _ => ?_
    ring
  · intro n l m x y h; simp [hA l m h]
  · intros; simp
  · intros; simp

theorem sumB' (b : Built p ax) (hs : p.tdep = true → s.Is p) (amp φ t : ℝ) (A : ℕ → ℕ → ℝ) (F : ℕ → ℕ → ℝ)
    (hA : ∀ l m, l < m → A l m = 0) :
    sumC (parse p ax amp s) (coefC (parse p ax amp s) t) φ (fun n l m _ sd => m * (-sd) * A l m * F n l)
      = amp * tsum' p t φ fun n l m => A l m * F n l := by
  rw [sumC_eq b hs]
  · unfold tsum'
    rw [Finset.mul_sum]
    refine Finset.sum_congr rfl fun i _ => ?_
    ring
  · intro n l m x y h; simp [hA l m h]
  · intros; simp
  · intros; simp

theorem fresh_force (d : CArgs) (R z φ t : ℝ) : forcesCM d .init R z φ t = (⟨.force (forcesC d R z φ t), (R, z, φ, t)⟩, forcesC d R z φ t) := rfl

theorem force_eq (b : Built p ax) (hs : p.tdep = true → s.Is p) (amp φ t : ℝ) (ha : 0 < p.a) (hR : 0 < R) :
    (cPot (parse p ax amp s)).Rforce R z φ t = amp * (Q p).Rforce R z φ t
    ∧ (cPot (parse p ax amp s)).zforce R z φ t = amp * (Q p).zforce R z φ t
    ∧ (cPot (parse p ax amp s)).phitorque R z φ t = amp * (Q p).phitorque R z φ t := by
  have hw := SHTerm.w_pos (z := z) hR
  have hx := SHTerm.x_lt (z := z) hR
  have a0 : ∀ l m, l < m → alp l m (cos (Coords.atan2 R z)) = 0 := fun l m h => alp_zero h _
  have a1 : ∀ l m, l < m → deriv (alp l m) (cos (Coords.atan2 R z)) = 0 := fun l m h => deriv_alp_zero h _
  have e := @sumA p ax s b hs amp φ t
  have e' := @sumB p ax s b hs amp φ t
  refine ⟨?_, ?_, ?_⟩
  all_goals
    simp only [cPot, callC, fresh_force, forcesC]
    simp only [e _ _ a0, e _ _ a1, e' _ _ a0]
    simp only [sq_eq, cosθ hR, sinθ hR, parse_a, Q, Pot.fsum, SHTerm.pot, tsum, tsum', Leg.deriv_alp _ _ hx]
    generalize √(R ^ 2 + z ^ 2) = w at *
    simp only [Finset.mul_sum, Finset.sum_mul, ← Finset.sum_neg_distrib, ← Finset.sum_add_distrib]
    refine Finset.sum_congr rfl fun i _ => ?_
    simp only [term, ← phiC_eq ha hw, ← dphiC_eq ha hw]
    ring

theorem hessC_eq (b : Built p ax) (hs : p.tdep = true → s.Is p) (amp φ t : ℝ) (ha : 0 < p.a) (hR : 0 < R) :
    (hessC (parse p ax amp s) R z φ t).R2 = amp * (Q p).R2deriv R z φ t
    ∧ (hessC (parse p ax amp s) R z φ t).z2 = amp * (Q p).z2deriv R z φ t
    ∧ (hessC (parse p ax amp s) R z φ t).Rz = amp * (Q p).Rzderiv R z φ t
    ∧ (hessC (parse p ax amp s) R z φ t).phi2 = amp * (Q p).phi2deriv R z φ t
    ∧ (hessC (parse p ax amp s) R z φ t).Rphi = amp * (Q p).Rphideriv R z φ t
    ∧ (hessC (parse p ax amp s) R z φ t).zphi = amp * (Q p).phizderiv R z φ t := by
  have hw := SHTerm.w_pos (z := z) hR
  have hx := SHTerm.x_lt (z := z) hR
  have a0 : ∀ l m, l < m → alp l m (cos (Coords.atan2 R z)) = 0 := fun l m h => alp_zero h _
  have a1 : ∀ l m, l < m → dPthC (Coords.atan2 R z) l m = 0 := fun l m h => dPthC_zero h _
  have a2 : ∀ l m, l < m → d2PthC (Coords.atan2 R z) l m = 0 := fun l m h => d2PthC_zero h _
  have e := @sumA p ax s b hs amp φ t
  have em := @sumAm p ax s b hs amp φ t
  have e' := @sumB' p ax s b hs amp φ t
  refine ⟨?_, ?_, ?_, ?_, ?_, ?_⟩
  all_goals
    simp only [hessC]
    simp only [e _ _ a0, e _ _ a1, e _ _ a2, em _ _ a0, e' _ _ a0, e' _ _ a1]
    simp only [sq_eq, cosθ hR, parse_a, Q, Pot.fsum, SHTerm.pot, tsum, tsum', dPthC_eq hR, d2PthC_eq hR]
    generalize √(R ^ 2 + z ^ 2) = w at *
    simp only [Finset.mul_sum, Finset.sum_mul, ← Finset.sum_neg_distrib, ← Finset.sum_add_distrib]
    refine Finset.sum_congr rfl fun i _ => ?_
    simp only [term, ← phiC_eq ha hw, ← dphiC_eq ha hw, ← d2phiC_eq ha hw]
    ring

theorem cPot_consistent (b : Built p ax) (hs : p.tdep = true → s.Is p) (amp : ℝ) (ha : 0 < p.a) :
    Consistent (cPot (parse p ax amp s)) SHTerm.D :=
  .congr_on SHTerm.D_open ((Q_consistent p ha).scale amp) (fun _ _ _ _ h => evalC_eq b hs amp _ _ ha h)
    (fun _ _ _ _ h => (force_eq b hs amp _ _ ha h).1) (fun _ _ _ _ h => (force_eq b hs amp _ _ ha h).2.1)
    (fun _ _ _ _ h => (force_eq b hs amp _ _ ha h).2.2) (fun _ _ _ _ h => (hessC_eq b hs amp _ _ ha h).1)
    (fun _ _ _ _ h => (hessC_eq b hs amp _ _ ha h).2.1) (fun _ _ _ _ h => (hessC_eq b hs amp _ _ ha h).2.2.1)
    (fun _ _ _ _ h => (hessC_eq b hs amp _ _ ha h).2.2.2.1) (fun _ _ _ _ h => (hessC_eq b hs amp _ _ ha h).2.2.2.2.1)
    (fun _ _ _ _ h => (hessC_eq b hs amp _ _ ha h).2.2.2.2.2) (fun _ _ _ _ h => densC_eq b hs amp _ _ ha h)

theorem derivsC_eq (b : Built p ax) (hs : p.tdep = true → s.Is p) (amp φ t : ℝ) (ha : 0 < p.a) (hR : 0 < R) :
    (derivsC (parse p ax amp s) R 0 φ t).1 = amp * (Q p).R2deriv R 0 φ t
    ∧ (derivsC (parse p ax amp s) R 0 φ t).2.1 = amp * (Q p).phi2deriv R 0 φ t
    ∧ (derivsC (parse p ax amp s) R 0 φ t).2.2 = amp * (Q p).Rphideriv R 0 φ t := by
  have hw := SHTerm.w_pos (z := 0) hR
  have hww : √(R ^ 2 + 0 ^ 2) = R := by
    rw [show R ^ 2 + 0 ^ 2 = R ^ 2 by ring, sqrt_sq hR.le]
  have a0 : ∀ l m, l < m → alp l m (cos (Coords.atan2 R 0)) = 0 := fun l m h => alp_zero h _
  have e := @sumA p ax s b hs amp φ t
  have em := @sumAm p ax s b hs amp φ t
  have e' := @sumB p ax s b hs amp φ t
  refine ⟨?_, ?_, ?_⟩
  all_goals
    simp only [derivsC]
    simp only [e _ _ a0, em _ _ a0, e' _ _ a0]
    simp only [sq_eq, cosθ hR, parse_a, Q, Pot.fsum, SHTerm.pot, tsum, tsum', hww]
    simp only [Finset.mul_sum, Finset.sum_mul, ← Finset.sum_neg_distrib, ← Finset.sum_add_distrib]
    refine Finset.sum_congr rfl fun i _ => ?_
    simp only [term, ← phiC_eq ha hR, ← dphiC_eq ha hR, ← d2phiC_eq ha hR]
    field_simp
    try ring

/-! ### Cache -/

/-- What the cache always satisfies. -/
def CInv (d : CArgs) (σ : CState) : Prop :=
  match σ.val with
  | .fresh => True
  | .force v => v = forcesC d σ.key.1 σ.key.2.1 σ.key.2.2.1 σ.key.2.2.2
  | .deriv v => v = derivsC d σ.key.1 σ.key.2.1 σ.key.2.2.1 σ.key.2.2.2
  | .hess v => v = hessC d σ.key.1 σ.key.2.1 σ.key.2.2.1 σ.key.2.2.2

theorem forcesCM_inv {d : CArgs} {σ : CState} (i : CInv d σ) (R z φ t : ℝ) :
    CInv d (forcesCM d σ R z φ t).1 ∧ (forcesCM d σ R z φ t).2 = forcesC d R z φ t := by
  obtain ⟨v, k⟩ := σ
  cases v <;> simp only [forcesCM, CInv] at *
  · exact ⟨by first | trivial | rfl, by first | trivial | rfl⟩
  · split_ifs with h
    · subst h
      exact ⟨i, i⟩
    · exact ⟨by first | trivial | rfl, by first | trivial | rfl⟩
  · exact ⟨by first | trivial | rfl, by first | trivial | rfl⟩
  · exact ⟨by first | trivial | rfl, by first | trivial | rfl⟩

theorem derivsCM_inv {d : CArgs} {σ : CState} (i : CInv d σ) (R z φ t : ℝ) :
    CInv d (derivsCM d σ R z φ t).1 ∧ (derivsCM d σ R z φ t).2 = derivsC d R z φ t := by
  obtain ⟨v, k⟩ := σ
  cases v <;> simp only [derivsCM, CInv] at *
  · exact ⟨by first | trivial | rfl, by first | trivial | rfl⟩
  · exact ⟨by first | trivial | rfl, by first | trivial | rfl⟩
  · split_ifs with h
    · subst h
      exact ⟨i, i⟩
    · exact ⟨by first | trivial | rfl, by first | trivial | rfl⟩
  · exact ⟨by first | trivial | rfl, by first | trivial | rfl⟩

theorem hessCM_inv {d : CArgs} {σ : CState} (i : CInv d σ) (R z φ t : ℝ) :
    CInv d (hessCM d σ R z φ t).1 ∧ (hessCM d σ R z φ t).2 = hessC d R z φ t := by
  obtain ⟨v, k⟩ := σ
  cases v <;> simp only [hessCM, CInv] at *
  · exact ⟨by first | trivial | rfl, by first | trivial | rfl⟩
  · exact ⟨by first | trivial | rfl, by first | trivial | rfl⟩
  · exact ⟨by first | trivial | rfl, by first | trivial | rfl⟩
  · split_ifs with h
    · subst h
      exact ⟨i, i⟩
    · exact ⟨by first | trivial | rfl, by first | trivial | rfl⟩

theorem callC_inv {d : CArgs} {σ : CState} (i : CInv d σ) (f : CFun) (R z φ t : ℝ) :
    CInv d (callC d σ f R z φ t).1 ∧ (callC d σ f R z φ t).2 = (callC d .init f R z φ t).2 := by
  have i0 : CInv d .init := trivial
  have f1 := forcesCM_inv i R z φ t
  have f2 := forcesCM_inv i0 R z φ t
  have f3 := forcesCM_inv i R 0 φ t
  have f4 := forcesCM_inv i0 R 0 φ t
  have d1 := derivsCM_inv i R 0 φ t
  have d2 := derivsCM_inv i0 R 0 φ t
  have h1 := hessCM_inv i R z φ t
  have h2 := hessCM_inv i0 R z φ t
  cases f <;> simp only [callC, f1.2, f2.2, f3.2, f4.2, d1.2, d2.2, h1.2, h2.2, and_true]
  all_goals first | exact i | exact f1.1 | exact f3.1 | exact d1.1 | exact h1.1

theorem runC_eq {d : CArgs} (l : List (CFun × ℝ × ℝ × ℝ × ℝ)) {σ : CState} (i : CInv d σ) :
    runC d σ l = l.map fun c => (callC d .init c.1 c.2.1 c.2.2.1 c.2.2.2.1 c.2.2.2.2).2 := by
  induction l generalizing σ with
  | nil => rfl
  | cons c l ih =>
    obtain ⟨f, R, z, φ, t⟩ := c
    obtain ⟨j, e⟩ := callC_inv i f R z φ t
    simp only [runC, List.map_cons, ih j, e]

/-! ### Constructor and layout -/

theorem construct_built {a : ℝ} {N L M : ℕ} {Ac : ℕ → ℕ → ℕ → ℝ} {As : Option (ℕ → ℕ → ℕ → ℝ)} {sh : Bool}
    (h : construct a N L M Ac As sh = .ok (p, ax)) : Built p ax ∧ p.tdep = false := by
  unfold construct at h
  cases As with
  | none =>
    simp only [Option.isSome_none, Bool.false_eq_true, false_and, if_false, true_and, true_or, if_true] at h
    split_ifs at h with h2 h3 h5
    simp only [Except.ok.injEq, Prod.mk.injEq] at h
    obtain ⟨rfl, rfl⟩ := h
    refine ⟨⟨by simp, fun _ => ?_, fun _ t n l m hn hl hm h0 => ⟨?_, by simp [Par.coef]⟩⟩, rfl⟩
    · change L = 0 ∨ 0 < M
      omega
    · change n < N at hn
      change l < L at hl
      change m < M at hm
      have : Ac n l m = 0 := by
        by_contra hc
        refine h3 ⟨by omega, n, hn, l, hl, m, hm, h0, hc⟩
      simp [Par.coef, this]
  | some f =>
    simp only [Option.isSome_some, true_and, Bool.true_eq_false, false_and, if_false, false_or, Option.mem_def, Option.some.injEq,
      exists_eq_left', Option.getD_some] at h
    split_ifs at h with h1 h4 h5 h6
    all_goals
      simp only [Except.ok.injEq, Prod.mk.injEq] at h
      obtain ⟨rfl, rfl⟩ := h
      refine ⟨?_, rfl⟩
      rw [not_not] at h1
    · refine ⟨by simp, fun _ => ?_, fun _ t n l m hn hl hm h0 => ?_⟩
      · change L = 0 ∨ 0 < M
        omega
      · change n < N at hn
        change l < L at hl
        change m < M at hm
        rcases h6 with h6 | ⟨h6, h7⟩
        · omega
        · have e1 : Ac n l m = 0 := by
            by_contra hc
            exact h6 ⟨n, hn, l, hl, m, hm, h0, hc⟩
          simp [Par.coef, e1, h7 n hn l hl m hm]
    · exact ⟨fun _ => h1.symm, by simp, by simp⟩

theorem tri_succ (l : ℕ) : (l + 1) * (l + 1 + 1) / 2 = l * (l + 1) / 2 + (l + 1) := by
  rw [show (l + 1) * (l + 1 + 1) = l * (l + 1) + 2 * (l + 1) by ring, Nat.add_mul_div_left _ _ two_pos]

theorem tri_mono {l L : ℕ} (h : l ≤ L) : l * (l + 1) / 2 ≤ L * (L + 1) / 2 :=
  Nat.div_le_div_right (Nat.mul_le_mul h (by omega))

theorem off_succ {m L : ℕ} (h : m < L) :
    (m + 1) * L - (m + 1) * (m + 1 - 1) / 2 = m * L - m * (m - 1) / 2 + (L - m) ∧ m * (m - 1) / 2 ≤ m * L := by
  have e : (m + 1) * (m + 1 - 1) / 2 = m * (m - 1) / 2 + m := by
    cases m with
    | zero => rfl
    | succ k =>
      rw [Nat.add_sub_cancel, Nat.add_sub_cancel, show (k + 1 + 1) * (k + 1) = (k + 1) * k + 2 * (k + 1) by ring,
        Nat.add_mul_div_left _ _ two_pos]
  have h1 : m * (m - 1) / 2 ≤ m * L := (Nat.div_le_self _ _).trans (Nat.mul_le_mul_left m (by omega))
  refine ⟨?_, h1⟩
  have h2 : (m + 1) * L = m * L + L := by ring
  rw [e, h2]
  omega

theorem off_mono {m m' L : ℕ} (h : m ≤ m') (hL : m' ≤ L) : m * L - m * (m - 1) / 2 ≤ m' * L - m' * (m' - 1) / 2 := by
  induction m', h using Nat.le_induction with
  | base => rfl
  | succ k _ ih =>
    rw [(off_succ (by omega : k < L)).1]
    exact (ih (by omega)).trans (Nat.le_add_right _ _)

theorem off_last (L : ℕ) : L * L - L * (L - 1) / 2 = L * (L + 1) / 2 := by
  cases L with
  | zero => rfl
  | succ k =>
    have h1 := tri_succ k
    have h2 : (k + 1) * (k + 1 - 1) / 2 = k * (k + 1) / 2 := by rw [Nat.add_sub_cancel, mul_comm]
    have h3 : (k + 1) * (k + 1) = 2 * (k * (k + 1) / 2) + (k + 1) := by
      have : 2 * (k * (k + 1) / 2) = k * (k + 1) := Nat.mul_div_cancel' (Nat.even_mul_succ_self k).two_dvd
      rw [this]
      ring
    rw [h1, h2, h3]
    omega

theorem legIndex_lt {gsl2 : Bool} {l m L : ℕ} (hm : m ≤ l) (hl : l < L) : legIndex gsl2 l m L < L * (L + 1) / 2 := by
  cases gsl2
  · have e : legIndex false l m L = m * L - m * (m - 1) / 2 + (l - m) := rfl
    rw [e, ← off_last]
    have := off_mono (L := L) (show m + 1 ≤ L by omega) le_rfl
    rw [(off_succ (by omega : m < L)).1] at this
    omega
  · have e : legIndex true l m L = l * (l + 1) / 2 + m := rfl
    rw [e]
    have := tri_mono (show l + 1 ≤ L by omega)
    rw [tri_succ] at this
    omega

theorem legIndex_inj {gsl2 : Bool} {l m l' m' L : ℕ} (hm : m ≤ l) (hl : l < L) (hm' : m' ≤ l') (hl' : l' < L)
    (h : legIndex gsl2 l m L = legIndex gsl2 l' m' L) : l = l' ∧ m = m' := by
  cases gsl2
  · have e : ∀ l m, legIndex false l m L = m * L - m * (m - 1) / 2 + (l - m) := fun _ _ => rfl
    rw [e, e] at h
    rcases lt_trichotomy m m' with k | k | k
    · have := off_mono (L := L) (show m + 1 ≤ m' by omega) (by omega)
      rw [(off_succ (by omega : m < L)).1] at this
      omega
    · subst k
      omega
    · have := off_mono (L := L) (show m' + 1 ≤ m by omega) (by omega)
      rw [(off_succ (by omega : m' < L)).1] at this
      omega
  · have e : ∀ l m, legIndex true l m L = l * (l + 1) / 2 + m := fun _ _ => rfl
    rw [e, e] at h
    rcases lt_trichotomy l l' with k | k | k
    · have := tri_mono (show l + 1 ≤ l' by omega)
      rw [tri_succ] at this
      omega
    · subst k
      omega
    · have := tri_mono (show l' + 1 ≤ l by omega)
      rw [tri_succ] at this
      omega

end
end Verif.SCF
