import Verif.Lemmas.Pot.SCFCoef
import Mathlib.Topology.ContinuousMap.StoneWeierstrass
import Mathlib.MeasureTheory.Integral.DominatedConvergence

set_option autoImplicit false

/-!
# Convergence of Gauss-Legendre quadrature

The weights are positive and the products of rules in three variables converge for every continuous function.
-/

noncomputable section
namespace Verif.QuadConv
open Real Finset Filter Topology Polynomial
open SCF (Rule)

theorem wpos {r : Rule} {K : ℕ} (g : r.Gauss K) {i : ℕ} (hi : i < K) : 0 < r.w i := by
  let p : ℝ[X] := ∏ j ∈ (range K).erase i, (X - C (r.x j)) ^ 2
  have m : p.Monic := monic_prod_of_monic _ _ fun j _ => (monic_X_sub_C _).pow 2
  have d : p.natDegree < 2 * K := by
    have : p.natDegree = ∑ j ∈ (range K).erase i, 2 := by
      rw [natDegree_prod_of_monic _ _ fun j _ => (monic_X_sub_C _).pow 2]
      exact sum_congr rfl fun j _ => by rw [natDegree_pow, natDegree_X_sub_C]
    rw [this, sum_const, card_erase_of_mem (mem_range.2 hi), card_range, smul_eq_mul]
    omega
  have nn : ∀ x, 0 ≤ p.eval x := fun x => by
    simp only [p, eval_prod, eval_pow]
    exact prod_nonneg fun j _ => sq_nonneg _
  have e := g.exact p d
  have ip := GaussQuad.int_pos m.ne_zero fun x _ => nn x
  rw [← e, ← add_sum_erase _ _ (mem_range.2 hi), sum_eq_zero (s := (range K).erase i), add_zero] at ip
  · exact pos_of_mul_pos_left ip (nn _)
  · intro j hj
    have : p.eval (r.x j) = 0 := by
      simp only [p, eval_prod]
      exact prod_eq_zero hj (by simp)
    rw [this, mul_zero]

theorem wsum {r : Rule} {K : ℕ} (g : r.Gauss K) (hK : 0 < K) : ∑ i ∈ range K, r.w i = 2 := by
  have e := g.exact 1 (by simp; omega)
  simp only [eval_one, mul_one, intervalIntegral.integral_const, smul_eq_mul] at e
  rw [e]; norm_num

variable {leg : ℕ → Rule} (hl : ∀ K, (leg K).Gauss K)

/-- The sum over the nodes in three variables. -/
def Q3 (leg : ℕ → Rule) (a b c : ℕ) (F : ℝ → ℝ → ℝ → ℝ) : ℝ :=
  ∑ i ∈ range a, ∑ j ∈ range b, ∑ k ∈ range c, (leg a).w i * (leg b).w j * (leg c).w k * F ((leg a).x i) ((leg b).x j) ((leg c).x k)

def I3 (F : ℝ → ℝ → ℝ → ℝ) : ℝ := ∫ x in (-1 : ℝ)..1, ∫ y in (-1 : ℝ)..1, ∫ z in (-1 : ℝ)..1, F x y z

def Cont (F : ℝ → ℝ → ℝ → ℝ) : Prop := Continuous fun p : ℝ × ℝ × ℝ => F p.1 p.2.1 p.2.2

def cube : Set (ℝ × ℝ × ℝ) := Set.Icc (-1) 1 ×ˢ Set.Icc (-1) 1 ×ˢ Set.Icc (-1) 1

theorem cont1 {F : ℝ → ℝ → ℝ → ℝ} (h : Cont F) (x y : ℝ) : Continuous fun z => F x y z :=
  Continuous.comp (g := fun p : ℝ × ℝ × ℝ => F p.1 p.2.1 p.2.2) h
    (by fun_prop : Continuous fun z : ℝ => ((x, y, z) : ℝ × ℝ × ℝ))

theorem cont2 {F : ℝ → ℝ → ℝ → ℝ} (h : Cont F) : Continuous fun p : ℝ × ℝ => ∫ z in (-1 : ℝ)..1, F p.1 p.2 z :=
  intervalIntegral.continuous_parametric_intervalIntegral_of_continuous' (f := fun (p : ℝ × ℝ) z => F p.1 p.2 z)
    (Continuous.comp (g := fun p : ℝ × ℝ × ℝ => F p.1 p.2.1 p.2.2) h
      (by fun_prop : Continuous fun q : (ℝ × ℝ) × ℝ => ((q.1.1, q.1.2, q.2) : ℝ × ℝ × ℝ))) _ _

theorem cont3 {F : ℝ → ℝ → ℝ → ℝ} (h : Cont F) : Continuous fun x : ℝ => ∫ y in (-1 : ℝ)..1, ∫ z in (-1 : ℝ)..1, F x y z :=
  intervalIntegral.continuous_parametric_intervalIntegral_of_continuous' (f := fun x y => ∫ z in (-1 : ℝ)..1, F x y z)
    (cont2 h) _ _

theorem Q3_lin (a b c : ℕ) (s t : ℝ) (F G : ℝ → ℝ → ℝ → ℝ) :
    Q3 leg a b c (fun x y z => s * F x y z + t * G x y z) = s * Q3 leg a b c F + t * Q3 leg a b c G := by
  simp only [Q3, mul_sum]
  simp only [← sum_add_distrib]
  exact sum_congr rfl fun i _ => sum_congr rfl fun j _ => sum_congr rfl fun k _ => by ring

theorem I3_lin (s t : ℝ) {F G : ℝ → ℝ → ℝ → ℝ} (hF : Cont F) (hG : Cont G) :
    I3 (fun x y z => s * F x y z + t * G x y z) = s * I3 F + t * I3 G := by
  unfold I3
  have e1 : ∀ x y, ∫ z in (-1 : ℝ)..1, (s * F x y z + t * G x y z) = s * (∫ z in (-1 : ℝ)..1, F x y z) + t * ∫ z in (-1 : ℝ)..1, G x y z :=
    fun x y => by
      rw [intervalIntegral.integral_add (((cont1 hF x y).const_mul s).intervalIntegrable _ _) (((cont1 hG x y).const_mul t).intervalIntegrable _ _),
        intervalIntegral.integral_const_mul, intervalIntegral.integral_const_mul]
  have c2 : ∀ {F : ℝ → ℝ → ℝ → ℝ}, Cont F → ∀ x, Continuous fun y => ∫ z in (-1 : ℝ)..1, F x y z := fun h x =>
    (cont2 h).comp (by fun_prop : Continuous fun y : ℝ => ((x, y) : ℝ × ℝ))
  have e2 : ∀ x, ∫ y in (-1 : ℝ)..1, ∫ z in (-1 : ℝ)..1, (s * F x y z + t * G x y z)
      = s * (∫ y in (-1 : ℝ)..1, ∫ z in (-1 : ℝ)..1, F x y z) + t * ∫ y in (-1 : ℝ)..1, ∫ z in (-1 : ℝ)..1, G x y z := fun x => by
    simp only [e1]
    rw [intervalIntegral.integral_add (((c2 hF x).const_mul s).intervalIntegrable _ _) (((c2 hG x).const_mul t).intervalIntegrable _ _),
      intervalIntegral.integral_const_mul, intervalIntegral.integral_const_mul]
  simp only [e2]
  rw [intervalIntegral.integral_add (((cont3 hF).const_mul s).intervalIntegrable _ _) (((cont3 hG).const_mul t).intervalIntegrable _ _),
    intervalIntegral.integral_const_mul, intervalIntegral.integral_const_mul]

theorem I3_bound {F : ℝ → ℝ → ℝ → ℝ} {ε : ℝ} (h : ∀ p ∈ cube, |F p.1 p.2.1 p.2.2| ≤ ε) : |I3 F| ≤ 8 * ε := by
  have m : ∀ {x : ℝ}, x ∈ Set.uIoc (-1 : ℝ) 1 → x ∈ Set.Icc (-1 : ℝ) 1 := fun {x} hx => by
    rw [Set.uIoc_of_le (by norm_num)] at hx; exact ⟨hx.1.le, hx.2⟩
  have b : ∀ {g : ℝ → ℝ} {δ : ℝ}, (∀ x ∈ Set.Icc (-1 : ℝ) 1, |g x| ≤ δ) → |∫ x in (-1 : ℝ)..1, g x| ≤ 2 * δ := fun {g δ} k => by
    have := intervalIntegral.norm_integral_le_of_norm_le_const (f := g) (a := -1) (b := 1) (C := δ) fun x hx => k x (m hx)
    rw [Real.norm_eq_abs] at this
    refine this.trans (le_of_eq ?_)
    norm_num; ring
  refine (b fun x hx => b fun y hy => b fun z hz => h (x, y, z) ⟨hx, hy, hz⟩).trans (le_of_eq (by ring))

include hl in
theorem Q3_bound {a b c : ℕ} (ha : 0 < a) (hb : 0 < b) (hc : 0 < c) {F : ℝ → ℝ → ℝ → ℝ} {ε : ℝ}
    (h : ∀ p ∈ cube, |F p.1 p.2.1 p.2.2| ≤ ε) : |Q3 leg a b c F| ≤ 8 * ε := by
  have m : ∀ {K i : ℕ}, i ∈ range K → (leg K).x i ∈ Set.Icc (-1 : ℝ) 1 := fun hi =>
    ⟨((hl _).inside _ (mem_range.1 hi)).1.le, ((hl _).inside _ (mem_range.1 hi)).2.le⟩
  have p : ∀ {K i : ℕ}, i ∈ range K → 0 < (leg K).w i := fun hi => wpos (hl _) (mem_range.1 hi)
  calc |Q3 leg a b c F| ≤ ∑ i ∈ range a, ∑ j ∈ range b, ∑ k ∈ range c, (leg a).w i * (leg b).w j * (leg c).w k * ε := by
        unfold Q3
        refine (abs_sum_le_sum_abs _ _).trans (sum_le_sum fun i hi => (abs_sum_le_sum_abs _ _).trans (sum_le_sum fun j hj =>
          (abs_sum_le_sum_abs _ _).trans (sum_le_sum fun k hk => ?_)))
        have w := mul_pos (mul_pos (p hi) (p hj)) (p hk)
        rw [abs_mul, abs_of_pos w]
        exact mul_le_mul_of_nonneg_left (h (_, _, _) ⟨m hi, m hj, m hk⟩) w.le
    _ = (∑ i ∈ range a, (leg a).w i) * (∑ j ∈ range b, (leg b).w j) * (∑ k ∈ range c, (leg c).w k) * ε := by
        rw [sum_mul_sum, sum_mul, sum_mul]
        refine sum_congr rfl fun i _ => ?_
        rw [sum_mul, sum_mul]
        refine sum_congr rfl fun j _ => ?_
        rw [mul_sum, sum_mul]
    _ = 8 * ε := by rw [wsum (hl a) ha, wsum (hl b) hb, wsum (hl c) hc]; ring

include hl in
/-- Monomials. -/
theorem mono_tendsto {ι : Type} {l : Filter ι} {a b c : ι → ℕ} (ha : Tendsto a l atTop) (hb : Tendsto b l atTop) (hc : Tendsto c l atTop)
    (i j k : ℕ) : Tendsto (fun t => Q3 leg (a t) (b t) (c t) fun x y z => x ^ i * y ^ j * z ^ k) l (𝓝 (I3 fun x y z => x ^ i * y ^ j * z ^ k)) := by
  have q : ∀ {K n : ℕ}, n < K → ∑ s ∈ range K, (leg K).w s * (leg K).x s ^ n = ∫ x in (-1 : ℝ)..1, x ^ n := fun {K n} h => by
    have := (hl K).exact (X ^ n) (by rw [natDegree_X_pow]; omega)
    simpa using this
  have e : I3 (fun x y z => x ^ i * y ^ j * z ^ k)
      = (∫ x in (-1 : ℝ)..1, x ^ i) * (∫ x in (-1 : ℝ)..1, x ^ j) * ∫ x in (-1 : ℝ)..1, x ^ k := by
    unfold I3
    simp only [intervalIntegral.integral_const_mul, intervalIntegral.integral_mul_const]
  refine tendsto_const_nhds.congr' ?_
  filter_upwards [ha.eventually (eventually_gt_atTop i), hb.eventually (eventually_gt_atTop j), hc.eventually (eventually_gt_atTop k)]
    with t h1 h2 h3
  rw [e, ← q h1, ← q h2, ← q h3]
  unfold Q3
  rw [sum_mul_sum, sum_mul]
  refine sum_congr rfl fun s _ => ?_
  rw [sum_mul]
  refine sum_congr rfl fun u _ => ?_
  rw [mul_sum]
  exact sum_congr rfl fun v _ => by ring

/-- The polynomials in three variables. -/
def polys : Subalgebra ℝ C(ℝ × ℝ × ℝ, ℝ) :=
  Algebra.adjoin ℝ {⟨fun p => p.1, by fun_prop⟩, ⟨fun p => p.2.1, by fun_prop⟩, ⟨fun p => p.2.2, by fun_prop⟩}

theorem polys_sep : polys.SeparatesPoints := by
  intro p q h
  by_cases h1 : p.1 = q.1
  · by_cases h2 : p.2.1 = q.2.1
    · have h3 : p.2.2 ≠ q.2.2 := fun h3 => h (Prod.ext h1 (Prod.ext h2 h3))
      exact ⟨_, ⟨⟨fun p => p.2.2, by fun_prop⟩, Algebra.subset_adjoin (by simp), rfl⟩, h3⟩
    · exact ⟨_, ⟨⟨fun p => p.2.1, by fun_prop⟩, Algebra.subset_adjoin (by simp), rfl⟩, h2⟩
  · exact ⟨_, ⟨⟨fun p => p.1, by fun_prop⟩, Algebra.subset_adjoin (by simp), rfl⟩, h1⟩

include hl in
theorem polys_tendsto {ι : Type} {l : Filter ι} {a b c : ι → ℕ} (ha : Tendsto a l atTop) (hb : Tendsto b l atTop) (hc : Tendsto c l atTop)
    {g : C(ℝ × ℝ × ℝ, ℝ)} (hg : g ∈ polys) :
    Tendsto (fun t => Q3 leg (a t) (b t) (c t) fun x y z => g (x, y, z)) l (𝓝 (I3 fun x y z => g (x, y, z))) := by
  have hg' : g ∈ Submodule.span ℝ (Submonoid.closure
      ({⟨fun p => p.1, by fun_prop⟩, ⟨fun p => p.2.1, by fun_prop⟩, ⟨fun p => p.2.2, by fun_prop⟩} : Set C(ℝ × ℝ × ℝ, ℝ)) : Set C(ℝ × ℝ × ℝ, ℝ)) := by
    rw [← Algebra.adjoin_eq_span]; exact hg
  clear hg
  have ct : ∀ g : C(ℝ × ℝ × ℝ, ℝ), Cont fun x y z => g (x, y, z) := fun g => g.continuous
  induction hg' using Submodule.span_induction with
  | mem g h =>
    have : ∃ i j k : ℕ, ∀ x y z, g (x, y, z) = x ^ i * y ^ j * z ^ k := by
      induction h using Submonoid.closure_induction with
      | mem g h =>
        simp only [Set.mem_insert_iff, Set.mem_singleton_iff] at h
        rcases h with rfl | rfl | rfl
        · exact ⟨1, 0, 0, fun x y z => by simp⟩
        · exact ⟨0, 1, 0, fun x y z => by simp⟩
        · exact ⟨0, 0, 1, fun x y z => by simp⟩
      | one => exact ⟨0, 0, 0, fun x y z => by simp⟩
      | mul g h _ _ e f =>
        obtain ⟨i, j, k, e⟩ := e
        obtain ⟨i', j', k', f⟩ := f
        exact ⟨i + i', j + j', k + k', fun x y z => by simp only [ContinuousMap.mul_apply, e, f]; ring⟩
    obtain ⟨i, j, k, e⟩ := this
    simp only [e]
    exact mono_tendsto hl ha hb hc i j k
  | zero =>
    have : (fun x y z : ℝ => (0 : C(ℝ × ℝ × ℝ, ℝ)) (x, y, z)) = fun _ _ _ => 0 := rfl
    simp only [this]
    simp only [Q3, I3, mul_zero, sum_const_zero, intervalIntegral.integral_zero]
    exact tendsto_const_nhds
  | add g h hg hh e f =>
    have e' := e
    have f' := f
    have := (e'.const_mul 1).add (f'.const_mul 1)
    rw [← I3_lin 1 1 (ct g) (ct h)] at this
    simp only [← Q3_lin] at this
    simpa using this
  | smul s g hg e =>
    have e' := e
    have := (e'.const_mul s).add (e'.const_mul 0)
    rw [← I3_lin s 0 (ct g) (ct g)] at this
    simp only [← Q3_lin] at this
    simpa using this

include hl in
theorem tendsto_cont {ι : Type} {l : Filter ι} {a b c : ι → ℕ} (ha : Tendsto a l atTop) (hb : Tendsto b l atTop) (hc : Tendsto c l atTop)
    {F : ℝ → ℝ → ℝ → ℝ} (hF : Cont F) : Tendsto (fun t => Q3 leg (a t) (b t) (c t) F) l (𝓝 (I3 F)) := by
  rw [Metric.tendsto_nhds]
  intro ε hε
  have hK : IsCompact cube := isCompact_Icc.prod (isCompact_Icc.prod isCompact_Icc)
  obtain ⟨g, hg, near⟩ := ContinuousMap.exists_mem_subalgebra_near_continuous_of_isCompact_of_separatesPoints polys_sep
    ⟨fun p : ℝ × ℝ × ℝ => F p.1 p.2.1 p.2.2, hF⟩ hK (by positivity : 0 < ε / 32)
  have t := Metric.tendsto_nhds.1 (polys_tendsto hl ha hb hc hg) (ε / 4) (by positivity)
  filter_upwards [t, ha.eventually (eventually_gt_atTop 0), hb.eventually (eventually_gt_atTop 0), hc.eventually (eventually_gt_atTop 0)]
    with s h1 h2 h3 h4
  have nb : ∀ p ∈ cube, |1 * F p.1 p.2.1 p.2.2 + (-1) * g (p.1, p.2.1, p.2.2)| ≤ ε / 32 := fun p hp => by
    have := (near p hp).le
    rw [Real.norm_eq_abs, abs_sub_comm] at this
    refine le_trans (le_of_eq ?_) this
    congr 1
    show 1 * F p.1 p.2.1 p.2.2 + -1 * g p = F p.1 p.2.1 p.2.2 - g p
    ring
  have b1 := I3_bound (F := fun x y z => 1 * F x y z + (-1) * g (x, y, z)) nb
  have b2 := Q3_bound hl h2 h3 h4 (F := fun x y z => 1 * F x y z + (-1) * g (x, y, z)) nb
  rw [I3_lin 1 (-1) hF (show Cont fun x y z => g (x, y, z) from g.continuous)] at b1
  rw [Q3_lin] at b2
  rw [Real.dist_eq] at h1 ⊢
  rw [abs_le] at b1 b2
  rw [abs_lt] at h1 ⊢
  constructor <;> linarith [b1.1, b1.2, b2.1, b2.2, h1.1, h1.2]

include hl in
/-- Convergence for functions continuous on the cube. -/
theorem tendsto3 {ι : Type} {l : Filter ι} {a b c : ι → ℕ} (ha : Tendsto a l atTop) (hb : Tendsto b l atTop) (hc : Tendsto c l atTop)
    {F : ℝ → ℝ → ℝ → ℝ} (hF : ContinuousOn (fun p : ℝ × ℝ × ℝ => F p.1 p.2.1 p.2.2) cube) :
    Tendsto (fun t => Q3 leg (a t) (b t) (c t) F) l (𝓝 (I3 F)) := by
  let pr : ℝ → ℝ := fun x => max (-1) (min 1 x)
  have prm : ∀ x, pr x ∈ Set.Icc (-1 : ℝ) 1 := fun x => ⟨le_max_left _ _, max_le (by norm_num) (min_le_left _ _)⟩
  have pre : ∀ {x}, x ∈ Set.Icc (-1 : ℝ) 1 → pr x = x := fun {x} hx => by
    simp only [pr]; rw [min_eq_right hx.2, max_eq_right hx.1]
  have prc : Continuous pr := by fun_prop
  let G : ℝ → ℝ → ℝ → ℝ := fun x y z => F (pr x) (pr y) (pr z)
  have hG : Cont G := by
    have := hF.comp_continuous (f := fun p : ℝ × ℝ × ℝ => (pr p.1, pr p.2.1, pr p.2.2)) (by fun_prop)
      fun p => ⟨prm _, prm _, prm _⟩
    exact this
  have e1 : ∀ a b c, Q3 leg a b c F = Q3 leg a b c G := fun a b c => by
    have m : ∀ {K i : ℕ}, i ∈ range K → (leg K).x i ∈ Set.Icc (-1 : ℝ) 1 := fun hi =>
      ⟨((hl _).inside _ (mem_range.1 hi)).1.le, ((hl _).inside _ (mem_range.1 hi)).2.le⟩
    unfold Q3
    exact sum_congr rfl fun i hi => sum_congr rfl fun j hj => sum_congr rfl fun k hk => by simp only [G, pre (m hi), pre (m hj), pre (m hk)]
  have u : ∀ {x : ℝ}, x ∈ Set.uIcc (-1 : ℝ) 1 → x ∈ Set.Icc (-1 : ℝ) 1 := fun hx => by
    rwa [Set.uIcc_of_le (by norm_num)] at hx
  have e2 : I3 F = I3 G := by
    unfold I3
    exact intervalIntegral.integral_congr fun x hx => intervalIntegral.integral_congr fun y hy => intervalIntegral.integral_congr fun z hz => by
      simp only [G, pre (u hx), pre (u hy), pre (u hz)]
  simp only [e1, e2]
  exact tendsto_cont hl ha hb hc hG

end Verif.QuadConv
