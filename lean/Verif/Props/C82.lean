import Verif.Lemmas.ARS
import Mathlib.MeasureTheory.Function.JacobianOneDim
import Mathlib.MeasureTheory.Integral.IntervalIntegral.FundThmCalculus
import Mathlib.Analysis.Calculus.Deriv.Pow

set_option autoImplicit false

/-!
# C82: adaptive rejection sampling

`galpy.util.ars.ars` draws from a log-concave density `exp h`.  It keeps a hull of tangents, draws
a candidate from the exponential of the hull, accepts or rejects it with a second random number,
and adds rejected candidates to the hull.

Proved for every strictly concave `h` on every bounded or unbounded interval, every choice of
starting abscissae and every history of updates: the hull that the program keeps is the lowest of
the tangents at the points visited so far, its areas are right, candidates have exactly the density
of the hull, samples stay in the domain, and the value to which the function is compared is never
below the function.  With two abscissae the accepted candidates have exactly the density
`exp h`.

The last statement fails as soon as the hull has three abscissae: `evaluate_hull` looks up the
wrong tangent.
-/

noncomputable section

namespace Verif

open ARS ARSSpec MeasureTheory Set

namespace C82Spec

/-- A hull that the program can hold: set up from a list of abscissae in the domain (on both sides
of the peak where the domain is unbounded, as the documentation requires), then updated any number
of times at points of the domain.  `X` is the set of all abscissae used so far. -/
inductive Reach (D : Domain) (h hp : ℝ → ℝ) : Finset ℝ → Hull → Prop
  | setup (abc : List ℝ) (H : Hull) (two : 2 ≤ abc.length)
      (mem : ∀ a ∈ abc, a ∈ interval D.lo D.hi) (left : D.lo = none → ∃ a ∈ abc, 0 < hp a)
      (right : D.hi = none → ∃ a ∈ abc, hp a < 0) (e : setupHull D abc h hp = some H) :
      Reach D h hp abc.toFinset H
  | update (X : Finset ℝ) (H H' : Hull) (x : ℝ) (r : Reach D h hp X H)
      (mem : x ∈ interval D.lo D.hi) (e : updateHull H x (h x) (hp x) D = some H') :
      Reach D h hp (insert x X) H'

/-- Probability that the program accepts a candidate, the second random number being uniform. -/
def acceptance (h : ℝ → ℝ) (H : Hull) (candidate : ℝ) : ENNReal :=
  volume {v ∈ Ioo (0 : ℝ) 1 | accepts h H candidate v}

/-- Probability that one turn of the loop ends with a sample in `E`, both random numbers being
uniform and independent. -/
def yield (D : Domain) (h : ℝ → ℝ) (H : Hull) (E : Set ℝ) : ENNReal :=
  ∫⁻ u in {u ∈ Ioo (0 : ℝ) 1 | sampleHull H D u ∈ E}, acceptance h H (sampleHull H D u)

end C82Spec

open C82Spec

namespace C82aux

variable {D : Domain} {h hp : ℝ → ℝ} {X : Finset ℝ} {H : Hull}

lemma valid (c : LogConcave (interval D.lo D.hi) h hp) (r : Reach D h hp X H) :
    Valid D h hp X H := by
  induction r with
  | setup abc H two mem left right e => exact (setup_valid c two mem left right e).1
  | update X H H' x r mem e ih => exact (update_valid ih mem e).1

lemma tails (V : Valid D h hp X H) : Tails D.lo D.hi (envelope h hp X) := by
  have T := V.base.tails
  rwa [← V.pts] at T

lemma isOpen_interval (lo hi : Option ℝ) : IsOpen (interval lo hi) := by
  have : interval lo hi = {x | ∀ a ∈ lo, a < x} ∩ {x | ∀ b ∈ hi, x < b} := rfl
  rw [this]
  refine IsOpen.inter ?_ ?_
  · cases lo with
    | none => simp
    | some a =>
      have e : {x : ℝ | ∀ a' ∈ some a, a' < x} = Ioi a := by ext; simp
      rw [e]; exact isOpen_Ioi
  · cases hi with
    | none => simp
    | some a =>
      have e : {x : ℝ | ∀ a' ∈ some a, x < a'} = Iio a := by ext; simp
      rw [e]; exact isOpen_Iio

lemma areaTo_pos (V : Valid D h hp X H) {x : ℝ} (hx : x ∈ D.set) :
    0 < areaTo D.set (envelope h hp X) x ∧ areaTo D.set (envelope h hp X) x < H.cu := by
  have T := tails V
  have hopen := isOpen_interval D.lo D.hi
  obtain ⟨ε, hε, hball⟩ := Metric.isOpen_iff.1 hopen x hx
  have hy : x - ε / 2 ∈ interval D.lo D.hi :=
    hball (by rw [Metric.mem_ball, Real.dist_eq]; rw [abs_of_neg] <;> linarith)
  have hz : x + ε / 2 ∈ interval D.lo D.hi :=
    hball (by rw [Metric.mem_ball, Real.dist_eq]; rw [abs_of_pos] <;> linarith)
  constructor
  · have h0 : 0 ≤ areaTo D.set (envelope h hp X) (x - ε / 2) :=
      integral_nonneg fun _ => (Real.exp_pos _).le
    exact h0.trans_lt (areaTo_strict T hy hx (by linarith))
  · have h1 := areaTo_strict T hx hz (by linarith : x < x + ε / 2)
    have h2 := area_split T (x + ε / 2)
    have h3 : 0 ≤ ∫ t in interval D.lo D.hi ∩ Ioi (x + ε / 2), Real.exp (envelope h hp X t) :=
      integral_nonneg fun _ => (Real.exp_pos _).le
    rw [V.cu]
    unfold Domain.set at *
    linarith

/-- the uniform number that leads to the candidate `x` -/
def cdf (D : Domain) (h hp : ℝ → ℝ) (X : Finset ℝ) (H : Hull) (x : ℝ) : ℝ :=
  areaTo D.set (envelope h hp X) x / H.cu

lemma cdf_mem (V : Valid D h hp X H) {x : ℝ} (hx : x ∈ D.set) : cdf D h hp X H x ∈ Ioo (0 : ℝ) 1 := by
  obtain ⟨h1, h2⟩ := areaTo_pos V hx
  have := V.cu_pos
  exact ⟨by unfold cdf; positivity, (div_lt_one this).2 h2⟩

lemma cdf_sample (V : Valid D h hp X H) {u : ℝ} (hu : u ∈ Ioo (0 : ℝ) 1) :
    cdf D h hp X H (sampleHull H D u) = u := by
  have := V.cu_pos
  rw [cdf, (sample_spec V hu.1 hu.2).2, mul_div_cancel_right₀ _ this.ne']

lemma cdf_inj (V : Valid D h hp X H) : InjOn (cdf D h hp X H) D.set := by
  intro x hx y hy e
  have hcu := V.cu_pos
  have T := tails V
  have e' : areaTo D.set (envelope h hp X) x = areaTo D.set (envelope h hp X) y := by
    unfold cdf at e
    field_simp at e
    exact e
  exact le_antisymm ((areaTo_le_iff T hx hy).1 e'.le) ((areaTo_le_iff T hy hx).1 e'.ge)

lemma sample_cdf (V : Valid D h hp X H) {x : ℝ} (hx : x ∈ D.set) :
    sampleHull H D (cdf D h hp X H x) = x := by
  have hu := cdf_mem V hx
  exact cdf_inj V (sample_spec V hu.1 hu.2).1 hx (cdf_sample V hu)

lemma cdf_deriv (V : Valid D h hp X H) {E : Set ℝ} (hE : E ⊆ D.set) {x : ℝ} (hx : x ∈ E) :
    HasDerivWithinAt (cdf D h hp X H) (Real.exp (envelope h hp X x) / H.cu) E x := by
  have T := tails V
  have hc := T.cont.rexp
  have h1 : HasDerivAt (fun y => (areaTo D.set (envelope h hp X) x
      + ∫ t in x..y, Real.exp (envelope h hp X t)) / H.cu)
      (Real.exp (envelope h hp X x) / H.cu) x :=
    ((intervalIntegral.integral_hasDerivAt_right (hc.intervalIntegrable _ _)
      hc.aestronglyMeasurable.stronglyMeasurableAtFilter hc.continuousAt).const_add _).div_const _
  refine h1.hasDerivWithinAt.congr (fun y hy => ?_) ?_
  · rw [cdf, Domain.set, areaTo_add T (hE hx) (hE hy)]
  · simp [cdf]

lemma image_cdf (V : Valid D h hp X H) {E : Set ℝ} (hE : E ⊆ D.set) :
    cdf D h hp X H '' E = {u ∈ Ioo (0 : ℝ) 1 | sampleHull H D u ∈ E} := by
  ext u
  constructor
  · rintro ⟨x, hx, rfl⟩
    exact ⟨cdf_mem V (hE hx), by rw [sample_cdf V (hE hx)]; exact hx⟩
  · rintro ⟨hu, hs⟩
    exact ⟨_, hs, cdf_sample V hu⟩

/-- candidates have the density of the hull -/
lemma transfer (V : Valid D h hp X H) {E : Set ℝ} (hE : E ⊆ D.set) (hm : MeasurableSet E)
    (G : ℝ → ENNReal) :
    ∫⁻ u in {u ∈ Ioo (0 : ℝ) 1 | sampleHull H D u ∈ E}, G (sampleHull H D u)
      = ∫⁻ x in E, ENNReal.ofReal (Real.exp (envelope h hp X x) / H.cu) * G x := by
  have hcu := V.cu_pos
  rw [← image_cdf V hE, lintegral_image_eq_lintegral_abs_deriv_mul hm
    (fun x hx => cdf_deriv V hE hx) ((cdf_inj V).mono hE)]
  refine setLIntegral_congr_fun hm fun x hx => ?_
  rw [sample_cdf V (hE hx), abs_of_pos (by positivity)]

lemma vol_lt {r : ℝ} (h0 : 0 < r) (h1 : r ≤ 1) :
    volume {v ∈ Ioo (0 : ℝ) 1 | v < r} = ENNReal.ofReal r := by
  have : {v ∈ Ioo (0 : ℝ) 1 | v < r} = Ioo 0 r := by
    ext v
    simp only [mem_Ioo, mem_setOf_eq]
    constructor
    · rintro ⟨⟨a, b⟩, c⟩; exact ⟨a, c⟩
    · rintro ⟨a, c⟩; exact ⟨⟨a, c.trans_le h1⟩, c⟩
  rw [this, Real.volume_Ioo, sub_zero]

end C82aux

namespace C82aux

variable {D : Domain} {h hp : ℝ → ℝ}

lemma next_reach (c : LogConcave (interval D.lo D.hi) h hp) {X : Finset ℝ} {H : Hull}
    (r : Reach D h hp X H) {maxn nup : ℕ} (hle : nup ≤ maxn) {x v : ℝ}
    (hx : x ∈ interval D.lo D.hi) {H' : Hull} {nup' : ℕ}
    (e : nextHull D h hp maxn H nup x v = some (H', nup')) :
    nup' ≤ maxn ∧ ∃ X', Reach D h hp X' H' ∧ X ⊆ X' ∧ X'.card + nup = X.card + nup' := by
  unfold nextHull at e
  split_ifs at e with c1 c2
  · simp only [Option.some.injEq, Prod.mk.injEq] at e
    obtain ⟨rfl, rfl⟩ := e
    exact ⟨hle, X, r, subset_rfl, rfl⟩
  · rw [Option.map_eq_some_iff] at e
    obtain ⟨H₁, e1, e2⟩ := e
    simp only [Prod.mk.injEq] at e2
    obtain ⟨rfl, rfl⟩ := e2
    refine ⟨by omega, insert x X, Reach.update X H H₁ x r hx e1, Finset.subset_insert _ _, ?_⟩
    rw [Finset.card_insert_of_notMem (update_valid (valid c r) hx e1).2.2]
    omega
  · simp only [Option.some.injEq, Prod.mk.injEq] at e
    obtain ⟨rfl, rfl⟩ := e
    exact ⟨hle, X, r, subset_rfl, rfl⟩

lemma sampleone_reach (c : LogConcave (interval D.lo D.hi) h hp) {maxn : ℕ} (fuel : ℕ) :
    ∀ {X : Finset ℝ} {H : Hull} (_ : Reach D h hp X H) {nup : ℕ} (_ : nup ≤ maxn) {us : ℕ → ℝ}
      (_ : ∀ i, us i ∈ Ioo (0 : ℝ) 1) {x : ℝ} {H' : Hull} {nup' : ℕ} {us' : ℕ → ℝ}
      (_ : sampleone D h hp maxn fuel H nup us = some (x, H', nup', us')),
    x ∈ interval D.lo D.hi ∧ nup' ≤ maxn ∧ (∀ i, us' i ∈ Ioo (0 : ℝ) 1) ∧
      ∃ X', Reach D h hp X' H' ∧ X ⊆ X' ∧ X'.card + nup = X.card + nup' := by
  induction fuel with
  | zero => intro X H r nup hle us hus x H' nup' us' e; simp [sampleone] at e
  | succ fuel ih =>
    intro X H r nup hle us hus x H' nup' us' e
    unfold sampleone at e
    simp only at e
    have hx := (sample_spec (valid c r) (hus 0).1 (hus 0).2).1
    cases e1 : nextHull D h hp maxn H nup (sampleHull H D (us 0)) (us 1) with
    | none => rw [e1] at e; simp at e
    | some q =>
      obtain ⟨H₁, nup₁⟩ := q
      rw [e1] at e
      obtain ⟨hle₁, X₁, r₁, hsub, hcard⟩ := next_reach c r hle hx e1
      simp only at e
      split_ifs at e with c1
      · simp only [Option.some.injEq, Prod.mk.injEq] at e
        obtain ⟨rfl, rfl, rfl, rfl⟩ := e
        exact ⟨hx, hle₁, fun i => hus _, X₁, r₁, hsub, hcard⟩
      · obtain ⟨a1, a2, a3, X₂, r₂, hsub₂, hcard₂⟩ := ih r₁ hle₁ (fun i => hus (i + 2)) e
        exact ⟨a1, a2, a3, X₂, r₂, hsub.trans hsub₂, by omega⟩

lemma loop_reach (c : LogConcave (interval D.lo D.hi) h hp) {maxn fuel : ℕ} (nsamples : ℕ) :
    ∀ {X : Finset ℝ} {H : Hull} (_ : Reach D h hp X H) {nup : ℕ} (_ : nup ≤ maxn) {us : ℕ → ℝ}
      (_ : ∀ i, us i ∈ Ioo (0 : ℝ) 1) {out : List ℝ} {H' : Hull} {nup' : ℕ}
      (_ : arsLoop D h hp maxn fuel nsamples H nup us = some (out, H', nup')),
    out.length = nsamples ∧ (∀ x ∈ out, x ∈ interval D.lo D.hi) ∧ nup' ≤ maxn ∧
      ∃ X', Reach D h hp X' H' ∧ X ⊆ X' ∧ X'.card + nup = X.card + nup' := by
  induction nsamples with
  | zero =>
    intro X H r nup hle us hus out H' nup' e
    simp only [arsLoop, Option.some.injEq, Prod.mk.injEq] at e
    obtain ⟨rfl, rfl, rfl⟩ := e
    exact ⟨rfl, by simp, hle, X, r, subset_rfl, rfl⟩
  | succ k ih =>
    intro X H r nup hle us hus out H' nup' e
    unfold arsLoop at e
    cases e1 : sampleone D h hp maxn fuel H nup us with
    | none => rw [e1] at e; simp at e
    | some q =>
      obtain ⟨x, H₁, nup₁, us₁⟩ := q
      rw [e1] at e
      obtain ⟨a1, a2, a3, X₁, r₁, hsub, hcard⟩ := sampleone_reach c fuel r hle hus e1
      simp only [Option.map_eq_some_iff] at e
      obtain ⟨⟨out₁, H₂, nup₂⟩, e2, e3⟩ := e
      simp only [Prod.mk.injEq] at e3
      obtain ⟨rfl, rfl, rfl⟩ := e3
      obtain ⟨b1, b2, b3, X₂, r₂, hsub₂, hcard₂⟩ := ih r₁ a2 a3 e2
      refine ⟨by simp [b1], ?_, b3, X₂, r₂, hsub.trans hsub₂, by omega⟩
      intro y hy
      rcases List.mem_cons.1 hy with rfl | hy
      · exact a1
      · exact b2 y hy

/-- how likely a candidate is accepted if the upper hull is `m` and the lower hull is below the
function -/
lemma acceptance_eq {H : Hull} {x m : ℝ} (hm : (evaluateHull x H).1 = m) (hx : h x ≤ m)
    (hl : ∀ l, (evaluateHull x H).2 = some l → l ≤ h x) :
    acceptance h H x = ENNReal.ofReal (Real.exp (h x - m)) := by
  rw [← vol_lt (Real.exp_pos _) (Real.exp_le_one_iff.2 (by linarith)), acceptance]
  congr 1
  ext v
  simp only [mem_setOf_eq, and_congr_right_iff]
  intro hv
  unfold accepts squeeze
  rw [hm]
  constructor
  · rintro (q | q)
    · cases e : (evaluateHull x H).2 with
      | none => rw [e] at q; exact absurd q (not_lt.2 hv.1.le)
      | some l =>
        rw [e] at q
        refine lt_of_lt_of_le q (Real.exp_le_exp.2 ?_)
        linarith [hl l e]
    · exact q
  · exact Or.inr

end C82aux

/-- **Setting up the hull.**  Whenever the starting abscissae are distinct points of the domain,
lie on both sides of the peak where the domain is unbounded, and the function is not flat at the
first and last of them, the set-up succeeds; the stored normalisation is the area below the
exponential of the lowest tangent, and the stored cumulative sums are the fractions of that area
left of the points where neighbouring tangents meet. -/
theorem C82_setup (D : Domain) (h hp : ℝ → ℝ) (c : LogConcave (interval D.lo D.hi) h hp)
    (abc : List ℝ) (two : 2 ≤ abc.length) (nodup : abc.Nodup)
    (mem : ∀ a ∈ abc, a ∈ interval D.lo D.hi) (left : D.lo = none → ∃ a ∈ abc, 0 < hp a)
    (right : D.hi = none → ∃ a ∈ abc, hp a < 0)
    (ends : ∀ a ∈ abc, (∀ b ∈ abc, a ≤ b) ∨ (∀ b ∈ abc, b ≤ a) → hp a ≠ 0) :
    ∃ H, setupHull D abc h hp = some H ∧
      H.cu = area (interval D.lo D.hi) (envelope h hp abc.toFinset) ∧
      ∀ j, j + 1 < abc.length → ∃ a ∈ abc, ∃ b ∈ abc, a < H.zs j ∧ H.zs j < b ∧
        (∀ x ∈ abc, x ≤ a ∨ b ≤ x) ∧
        h a + hp a * (H.zs j - a) = h b + hp b * (H.zs j - b) ∧
        H.scum j = areaTo (interval D.lo D.hi) (envelope h hp abc.toFinset) (H.zs j) / H.cu := by
  obtain ⟨H, e⟩ := setup_some (D := D) c two nodup mem ends
  obtain ⟨V, hn, -⟩ := setup_valid (D := D) c two mem left right e
  have C := V.base.core
  have hX : ∀ a, a ∈ abc ↔ ∃ i < abc.length, H.xs i = a := by
    intro a
    rw [← List.mem_toFinset, V.pts, Core.pts, Finset.mem_image, hn]
    simp
  refine ⟨H, e, V.cu, fun j hj => ⟨H.xs j, (hX _).2 ⟨j, by omega, rfl⟩, H.xs (j + 1),
    (hX _).2 ⟨j + 1, hj, rfl⟩, C.z_gt c (by omega), C.z_lt c (by omega), ?_, ?_,
    V.scum j (by omega)⟩⟩
  · intro x hx
    obtain ⟨i, hi, rfl⟩ := (hX x).1 hx
    rcases lt_trichotomy i j with l | rfl | l
    · exact Or.inl (C.lt l (by omega)).le
    · exact Or.inl le_rfl
    · rcases Nat.eq_or_lt_of_le (Nat.succ_le_of_lt l) with e | l'
      · exact Or.inr (by rw [← e])
      · exact Or.inr (C.lt l' (by omega)).le
  · exact (C.hu j (by omega)).symm.trans (C.hu' c (by omega))

/-- **Updating the hull.**  Adding a point of the domain that is not an abscissa yet succeeds
unless the function is flat at the new first or last abscissa, and gives a hull whose stored
normalisation is the area below the exponential of the lowest of the old tangents and the new
one. -/
theorem C82_update (D : Domain) (h hp : ℝ → ℝ) (c : LogConcave (interval D.lo D.hi) h hp)
    (X : Finset ℝ) (H : Hull) (r : Reach D h hp X H) (x : ℝ) (mem : x ∈ interval D.lo D.hi) :
    (x ∈ X → updateHull H x (h x) (hp x) D = none) ∧
    (x ∉ X → hp x ≠ 0 → ∃ H', updateHull H x (h x) (hp x) D = some H') ∧
    ∀ H', updateHull H x (h x) (hp x) D = some H' →
      H'.cu = area (interval D.lo D.hi) (fun t => min (envelope h hp X t) (h x + hp x * (t - x))) ∧
      H'.n = X.card + 1 := by
  have V := C82aux.valid c r
  have hne : X.Nonempty := by rw [V.pts]; exact V.base.ne
  refine ⟨fun hx => ?_, fun hx h0 => update_some V mem hx h0, fun H' e => ?_⟩
  · by_contra hn
    obtain ⟨H', e⟩ := Option.ne_none_iff_exists'.1 hn
    exact (update_valid V mem e).2.2 hx
  · obtain ⟨V', hn, -⟩ := update_valid V mem e
    refine ⟨?_, ?_⟩
    · rw [V'.cu]
      unfold area
      simp_rw [env_insert hne]
      rfl
    · rw [hn, ← V.base.core.card, ← V.pts]

/-- **Only the set of abscissae matters.**  Two hulls that were set up and updated in different
ways, but with the same abscissae overall, give the same candidates and the same upper and lower
hull. -/
theorem C82_history (D : Domain) (h hp : ℝ → ℝ) (c : LogConcave (interval D.lo D.hi) h hp)
    (X : Finset ℝ) (H₁ H₂ : Hull) (r₁ : Reach D h hp X H₁) (r₂ : Reach D h hp X H₂) :
    (∀ u ∈ Ioo (0 : ℝ) 1, sampleHull H₁ D u = sampleHull H₂ D u) ∧
    (∀ x, x ∉ X → evaluateHull x H₁ = evaluateHull x H₂) :=
  ⟨fun _ hu => sample_unique (C82aux.valid c r₁) (C82aux.valid c r₂) hu.1 hu.2,
    fun _ hx => eval_unique (C82aux.valid c r₁) (C82aux.valid c r₂) hx⟩

/-- **Candidates are drawn from the hull.**  For every hull and every random number strictly
between zero and one, the candidate lies in the domain, and it does not exceed `s` exactly if the
random number does not exceed the fraction of the area of the hull left of `s`: the candidate is
the quantile of the density proportional to the exponential of the hull. -/
theorem C82_candidate (D : Domain) (h hp : ℝ → ℝ) (c : LogConcave (interval D.lo D.hi) h hp)
    (X : Finset ℝ) (H : Hull) (r : Reach D h hp X H) (u : ℝ) (hu : u ∈ Ioo (0 : ℝ) 1) :
    sampleHull H D u ∈ interval D.lo D.hi ∧
    ∀ s ∈ interval D.lo D.hi, sampleHull H D u ≤ s ↔
      u * area (interval D.lo D.hi) (envelope h hp X)
        ≤ areaTo (interval D.lo D.hi) (envelope h hp X) s := by
  have V := C82aux.valid c r
  obtain ⟨m, a⟩ := sample_spec V hu.1 hu.2
  refine ⟨m, fun s hs => ?_⟩
  have := V.cu
  rw [Domain.set] at *
  rw [← this, ← a]
  exact (areaTo_le_iff (C82aux.tails V) m hs).symm

/-- The same as a statement about probabilities: for every measurable event. -/
theorem C82_candidate_density (D : Domain) (h hp : ℝ → ℝ)
    (c : LogConcave (interval D.lo D.hi) h hp) (X : Finset ℝ) (H : Hull) (r : Reach D h hp X H)
    (E : Set ℝ) (hE : E ⊆ interval D.lo D.hi) (hm : MeasurableSet E) :
    volume {u ∈ Ioo (0 : ℝ) 1 | sampleHull H D u ∈ E}
      = ∫⁻ x in E, ENNReal.ofReal (Real.exp (envelope h hp X x)
          / area (interval D.lo D.hi) (envelope h hp X)) := by
  have V := C82aux.valid c r
  have := C82aux.transfer V hE hm (fun _ => 1)
  rw [setLIntegral_one] at this
  rw [this, V.cu]
  simp [Domain.set]

/-- **The comparison value bounds the function.**  For every hull and every point of the domain
the value to which the function is compared is at least the lowest tangent, hence at least the
function: no acceptance probability exceeds one. -/
theorem C82_upper (D : Domain) (h hp : ℝ → ℝ) (c : LogConcave (interval D.lo D.hi) h hp)
    (X : Finset ℝ) (H : Hull) (r : Reach D h hp X H) (x : ℝ) (hx : x ∈ interval D.lo D.hi) :
    h x ≤ envelope h hp X x ∧ envelope h hp X x ≤ (evaluateHull x H).1 := by
  have V := C82aux.valid c r
  refine ⟨?_, eval_ge V x⟩
  rw [V.pts]
  exact le_env V.base.ne c V.base.sub hx

/-- **Every sample lies in the domain.**  However many samples are drawn and whatever the random
numbers are, `ars` returns the requested number of samples, all of them in the domain, after at
most `maxn` updates of the hull. -/
theorem C82_ars (D : Domain) (h hp : ℝ → ℝ) (c : LogConcave (interval D.lo D.hi) h hp)
    (abc : List ℝ) (two : 2 ≤ abc.length) (mem : ∀ a ∈ abc, a ∈ interval D.lo D.hi)
    (left : D.lo = none → ∃ a ∈ abc, 0 < hp a) (right : D.hi = none → ∃ a ∈ abc, hp a < 0)
    (nsamples maxn fuel : ℕ) (us : ℕ → ℝ) (hus : ∀ i, us i ∈ Ioo (0 : ℝ) 1)
    (out : List ℝ) (H : Hull) (nup : ℕ)
    (e : ars D abc h hp nsamples maxn fuel us = some (out, H, nup)) :
    out.length = nsamples ∧ (∀ x ∈ out, x ∈ interval D.lo D.hi) ∧ nup ≤ maxn ∧
      ∃ X, Reach D h hp X H ∧ abc.toFinset ⊆ X ∧ X.card = abc.toFinset.card + nup := by
  unfold ars at e
  cases e1 : setupHull D abc h hp with
  | none => rw [e1] at e; simp at e
  | some H₀ =>
    rw [e1] at e
    exact C82aux.loop_reach c nsamples (Reach.setup abc H₀ two mem left right e1) (Nat.zero_le _)
      hus e

/-- **Two abscissae: exact sampling.**  If the hull has two abscissae, the probability that one
turn of the loop ends with a sample in `E` is the integral of `exp h` over `E`, divided by the same
constant for all `E`: the samples are distributed as `exp h`.  (Missing: hulls with more
abscissae, for which it is false, see below.) -/
theorem C82_distribution_partial (D : Domain) (h hp : ℝ → ℝ)
    (c : LogConcave (interval D.lo D.hi) h hp) (X : Finset ℝ) (H : Hull) (r : Reach D h hp X H)
    (hX : X.card = 2) (E : Set ℝ) (hE : E ⊆ interval D.lo D.hi) (hm : MeasurableSet E) :
    yield D h H E = ∫⁻ x in E, ENNReal.ofReal (Real.exp (h x)
      / area (interval D.lo D.hi) (envelope h hp X)) := by
  have V := C82aux.valid c r
  have hcu := V.cu_pos
  have h2 : H.n = 2 := by rw [← V.base.core.card, ← V.pts, hX]
  rw [yield, C82aux.transfer V hE hm]
  refine setLIntegral_congr_fun hm fun x hx => ?_
  have hle : h x ≤ envelope h hp X x := (C82_upper D h hp c X H r x (hE hx)).1
  have e := V.cu
  rw [Domain.set] at e
  rw [C82aux.acceptance_eq (eval_two V h2 x) hle (fun l hl => eval_two_low V h2 hl), ← e,
    ← ENNReal.ofReal_mul (by positivity), div_mul_eq_mul_div, ← Real.exp_add]
  congr 3
  ring


/-! ### The densities used by galpy, and a Gaussian -/

namespace C82aux

lemma interval_convex (lo hi : Option ℝ) : Convex ℝ (interval lo hi) := by
  rw [convex_iff_ordConnected]
  exact ⟨fun x hx y hy t ht => interval_le hx hy ht.1 ht.2⟩

lemma LogConcave.of_anti {lo hi : Option ℝ} {h hp : ℝ → ℝ}
    (hd : ∀ x ∈ interval lo hi, HasDerivAt h (hp x) x)
    (ha : ∀ x ∈ interval lo hi, ∀ y ∈ interval lo hi, x < y → hp y < hp x) :
    LogConcave (interval lo hi) h hp := by
  refine ⟨StrictAntiOn.strictConcaveOn_of_deriv (interval_convex lo hi)
    (fun x hx => (hd x hx).continuousAt.continuousWithinAt) ?_, hd⟩
  rw [(isOpen_interval lo hi).interior_eq]
  intro x hx y hy l
  rw [(hd x hx).deriv, (hd y hy).deriv]
  exact ha x hx y hy l

lemma pos_of_mem {hi : Option ℝ} {x : ℝ} (hx : x ∈ interval (some 0) hi) : 0 < x := hx.1 0 rfl

lemma stream_conc {mO sO2 : ℝ} (hs : 0 < sO2) :
    LogConcave (interval (some 0) none) (streamH mO sO2) (streamHp mO sO2) := by
  refine LogConcave.of_anti (fun x hx => ?_) fun x hx y hy l => ?_
  · have h0 := pos_of_mem hx
    have h1 : HasDerivAt (fun x => -0.5 * (x - mO) ^ 2 / sO2) (-(x - mO) / sO2) x := by
      refine (((((hasDerivAt_id x).sub_const mO).pow 2).const_mul (-0.5)).div_const sO2).congr_deriv
        ?_
      simp
      ring
    exact (h1.add (Real.hasDerivAt_log h0.ne')).congr_deriv (by simp [streamHp])
  · have h0 := pos_of_mem hx
    have h1 := pos_of_mem hy
    unfold streamHp
    have e1 : -(y - mO) / sO2 < -(x - mO) / sO2 := by
      rw [div_lt_div_iff_of_pos_right hs]; linarith
    have e2 : 1 / y < 1 / x := one_div_lt_one_div_of_lt h0 l
    linarith

lemma disk_conc (hr : ℝ) :
    LogConcave (interval (some 0) none) (diskH hr none) (diskHp hr none) := by
  refine LogConcave.of_anti (fun x hx => ?_) fun x hx y hy l => ?_
  · have h0 := pos_of_mem hx
    exact ((Real.hasDerivAt_log h0.ne').add ((hasDerivAt_id x).neg.div_const hr)).congr_deriv
      (by simp [diskHp])
  · have h0 := pos_of_mem hx
    have e2 : 1 / y < 1 / x := one_div_lt_one_div_of_lt h0 l
    unfold diskHp
    linarith

/-- a standard normal density, up to a factor -/
lemma gauss_conc (lo hi : Option ℝ) :
    LogConcave (interval lo hi) (fun x => -x ^ 2 / 2) (fun x => -x) := by
  refine LogConcave.of_anti (fun x _ => ?_) fun x _ y _ l => by simpa using l
  refine (((hasDerivAt_id x).pow 2).neg.div_const 2).congr_deriv ?_
  simp
  ring

lemma pair_lt {a b : ℝ} (l : a < b) {P : ℝ → Prop} (ha : P a) (hb : P b) : ∀ x ∈ [a, b], P x := by
  intro x hx
  rcases List.mem_pair.1 hx with rfl | rfl
  · exact ha
  · exact hb

/-- a call of `ars` with two abscissae on both sides of the peak -/
lemma pair_setup {D : Domain} {h hp : ℝ → ℝ} (c : LogConcave (interval D.lo D.hi) h hp) {a b : ℝ}
    (l : a < b) (ha : a ∈ interval D.lo D.hi) (hb : b ∈ interval D.lo D.hi) (h1 : hp a ≠ 0)
    (h1' : D.lo = none → 0 < hp a) (h2 : hp b < 0) :
    ∃ H, setupHull D [a, b] h hp = some H ∧ Reach D h hp {a, b} H := by
  obtain ⟨H, e, -⟩ := C82_setup D h hp c [a, b] (by simp) (by simp [l.ne]) (pair_lt l ha hb)
    (fun e => ⟨a, by simp, h1' e⟩) (fun _ => ⟨b, by simp, h2⟩)
    (pair_lt l (fun _ => h1) (fun _ => h2.ne))
  refine ⟨H, e, ?_⟩
  have := Reach.setup (D := D) [a, b] H (by simp) (pair_lt l ha hb) (fun e => ⟨a, by simp, h1' e⟩)
    (fun _ => ⟨b, by simp, h2⟩) e
  simpa using this

end C82aux

/-- **Frequency offsets of streams are positive.**  When the mean frequency offset exceeds its
dispersion, `streamdf.sample` can set up the sampler, and every offset that is drawn is
positive, for every number of samples and all random numbers. -/
theorem C82_streamdf (mO sO2 : ℝ) (hs : 0 < sO2) (hm : √sO2 < mO) :
    (∃ H, setupHull ⟨some 0, none⟩ [mO - √sO2, mO + √sO2] (streamH mO sO2) (streamHp mO sO2)
      = some H) ∧
    ∀ (n fuel : ℕ) (us : ℕ → ℝ), (∀ i, us i ∈ Ioo (0 : ℝ) 1) → ∀ out H nup,
      streamSample mO sO2 n fuel us = some (out, H, nup) →
      out.length = n ∧ (∀ x ∈ out, 0 < x) ∧ nup ≤ 100 := by
  have hσ : 0 < √sO2 := Real.sqrt_pos.2 hs
  have hsq : √sO2 * √sO2 = sO2 := Real.mul_self_sqrt hs.le
  have c := C82aux.stream_conc (mO := mO) hs
  have l : mO - √sO2 < mO + √sO2 := by linarith
  have ha : mO - √sO2 ∈ interval (some 0) none := ⟨fun a e => by
    rw [Option.mem_some_iff] at e; linarith, by simp⟩
  have hb : mO + √sO2 ∈ interval (some 0) none := ⟨fun a e => by
    rw [Option.mem_some_iff] at e; linarith, by simp⟩
  have h1 : 0 < streamHp mO sO2 (mO - √sO2) := by
    have : 0 < mO - √sO2 := by linarith
    unfold streamHp
    rw [show -(mO - √sO2 - mO) = √sO2 by ring]
    positivity
  have h2 : streamHp mO sO2 (mO + √sO2) < 0 := by
    unfold streamHp
    have e : -(mO + √sO2 - mO) / sO2 = -(1 / √sO2) := by
      rw [← hsq]
      simp only [Real.sqrt_mul_self hσ.le]
      field_simp
      ring
    have : 1 / (mO + √sO2) < 1 / √sO2 := one_div_lt_one_div_of_lt hσ (by linarith)
    rw [e]
    linarith
  obtain ⟨H, e, -⟩ := C82aux.pair_setup (D := ⟨some 0, none⟩) c l ha hb h1.ne' (by simp) h2
  refine ⟨⟨H, e⟩, fun n fuel us hus out H' nup e' => ?_⟩
  obtain ⟨a1, a2, a3, -⟩ := C82_ars ⟨some 0, none⟩ _ _ c [mO - √sO2, mO + √sO2] (by simp)
    (C82aux.pair_lt l ha hb) (by simp) (fun _ => ⟨_, by simp, h2⟩) n 100 fuel us hus out H' nup e'
  exact ⟨a1, fun x hx => C82aux.pos_of_mem (a2 x hx), a3⟩

/-- **Radii of disk orbits are positive.**  For an exponential disk with scale length below 2 (and
not exactly 0.05, where the first abscissa is the peak), `diskdf.sample` without correction can set
up the sampler, and every radius that is drawn is positive. -/
theorem C82_diskdf_partial (hr : ℝ) (h0 : 0 < hr) (h2 : hr < 2) (h3 : hr ≠ 0.05) :
    (∃ H, setupHull ⟨some 0, none⟩ [0.05, 2] (diskH hr none) (diskHp hr none) = some H) ∧
    ∀ (n fuel : ℕ) (us : ℕ → ℝ), (∀ i, us i ∈ Ioo (0 : ℝ) 1) → ∀ out H nup,
      diskSample hr n fuel us = some (out, H, nup) →
      out.length = n ∧ (∀ x ∈ out, 0 < x) ∧ nup ≤ 100 := by
  have c := C82aux.disk_conc hr
  have l : (0.05 : ℝ) < 2 := by norm_num
  have ha : (0.05 : ℝ) ∈ interval (some 0) none := ⟨fun a e => by
    rw [Option.mem_some_iff] at e; rw [← e]; norm_num, by simp⟩
  have hb : (2 : ℝ) ∈ interval (some 0) none := ⟨fun a e => by
    rw [Option.mem_some_iff] at e; linarith, by simp⟩
  have h1 : diskHp hr none 0.05 ≠ 0 := by
    unfold diskHp
    intro e
    apply h3
    field_simp at e
    linarith
  have hneg : diskHp hr none 2 < 0 := by
    unfold diskHp
    have : 1 / 2 < 1 / hr := one_div_lt_one_div_of_lt h0 h2
    rw [neg_div]
    linarith
  obtain ⟨H, e, -⟩ := C82aux.pair_setup (D := ⟨some 0, none⟩) c l ha hb h1 (by simp) hneg
  refine ⟨⟨H, e⟩, fun n fuel us hus out H' nup e' => ?_⟩
  obtain ⟨a1, a2, a3, -⟩ := C82_ars ⟨some 0, none⟩ _ _ c [0.05, 2] (by simp)
    (C82aux.pair_lt l ha hb) (by simp) (fun _ => ⟨_, by simp, hneg⟩) n 100 fuel us hus out H' nup e'
  exact ⟨a1, fun x hx => C82aux.pos_of_mem (a2 x hx), a3⟩

/-! ### Where it fails -/

/-- **The abscissa at the peak.**  A disk with scale length 0.05 (or 2) cannot be sampled: the
first (last) of the fixed starting abscissae is exactly the peak of the density, and the set-up
divides by the zero slope there, although the documentation only asks for abscissae on both sides
of the peak when the domain is unbounded. -/
theorem C82_peak_fails :
    LogConcave (interval (some 0) none) (diskH 0.05 none) (diskHp 0.05 none) ∧
    ∀ n fuel us, diskSample 0.05 n fuel us = none ∧ diskSample 2 n fuel us = none := by
  refine ⟨C82aux.disk_conc _, fun n fuel us => ?_⟩
  have hs : [(0.05 : ℝ), 2].mergeSort (fun a b => decide (a ≤ b)) = [0.05, 2] :=
    List.mergeSort_of_pairwise (by simp; norm_num)
  have e : ∀ hr, diskHp hr none 0.05 = 0 ∨ diskHp hr none 2 = 0 →
      setupHull ⟨some 0, none⟩ [0.05, 2] (diskH hr none) (diskHp hr none) = none := by
    intro hr h0
    unfold setupHull
    rw [hs]
    simp only
    split_ifs
    · rfl
    · rw [finish, if_pos]
      simpa using h0
  constructor
  · rw [diskSample, ars, e _ (Or.inl (by unfold diskHp; norm_num))]
  · rw [diskSample, ars, e _ (Or.inr (by unfold diskHp; norm_num))]

/-- when the two functions handed to the sampler match -/
lemma C82aux.corrected (hr : ℝ) (L L' : ℝ → ℝ) (x : ℝ) (hx : 0 < x)
    (hL : HasDerivAt L (L' x) x) :
    HasDerivAt (diskH hr (some L)) (diskHp hr (some L') x) x ↔ L' x = 0 ∨ L x = 0 := by
  have h1 : HasDerivAt (diskH hr (some L)) (x⁻¹ + -1 / hr + Real.exp (L x) * L' x) x :=
    ((Real.hasDerivAt_log hx.ne').add ((hasDerivAt_id x).neg.div_const hr)).add hL.exp
  have h2 : diskHp hr (some L') x = x⁻¹ + -1 / hr + L' x := by simp [diskHp]
  constructor
  · intro e
    have := e.unique h1
    rw [h2] at this
    have h3 : L' x * (Real.exp (L x) - 1) = 0 := by linarith
    rcases mul_eq_zero.1 h3 with h | h
    · exact Or.inl h
    · exact Or.inr (Real.exp_eq_one_iff _ |>.1 (by linarith))
  · rintro (h | h)
    · rw [h2, h]; rw [h] at h1; simpa using h1
    · rw [h2]; rw [h] at h1; simpa using h1

/-- **Corrected disks.**  With `correct=True` the function handed to the sampler adds the
correction itself instead of its logarithm, while the derivative handed over is that of the
logarithm.  Where the correction is neither stationary nor equal to one, the second is not the
derivative of the first; and such corrections exist. -/
theorem C82_corrected_fails :
    (∀ (hr : ℝ) (L L' : ℝ → ℝ) (x : ℝ), 0 < x → HasDerivAt L (L' x) x → L' x ≠ 0 → L x ≠ 0 →
      ¬ HasDerivAt (diskH hr (some L)) (diskHp hr (some L') x) x) ∧
    ¬ HasDerivAt (diskH (1 / 3) (some fun x => x / 10)) (diskHp (1 / 3) (some fun _ => 1 / 10) 1)
      1 := by
  have key : ∀ (hr : ℝ) (L L' : ℝ → ℝ) (x : ℝ), 0 < x → HasDerivAt L (L' x) x → L' x ≠ 0 →
      L x ≠ 0 → ¬ HasDerivAt (diskH hr (some L)) (diskHp hr (some L') x) x := by
    intro hr L L' x hx hL h1 h2 h3
    rcases (C82aux.corrected hr L L' x hx hL).1 h3 with h | h
    · exact h1 h
    · exact h2 h
  refine ⟨key, key _ _ (fun _ => 1 / 10) 1 one_pos ?_ (by norm_num) (by norm_num)⟩
  exact (hasDerivAt_id (1 : ℝ)).div_const 10

namespace C82aux

/-- the hull of a normal density with abscissae -1, 0 and 1 -/
lemma gauss3 : ∃ H, Reach ⟨none, none⟩ (fun x => -x ^ 2 / 2) (fun x => -x) {-1, 0, 1} H ∧
    H.n = 3 ∧ H.xs 0 = -1 ∧ H.xs 1 = 0 ∧ H.xs 2 = 1 ∧ H.zs 0 = -1 / 2 ∧ H.zs 1 = 1 / 2 := by
  have hs : [(-1 : ℝ), 0, 1].mergeSort (fun a b => decide (a ≤ b)) = [-1, 0, 1] :=
    List.mergeSort_of_pairwise (by simp)
  have c := gauss_conc none none
  have mem : ∀ a ∈ [(-1 : ℝ), 0, 1], a ∈ interval none none := fun a _ => ⟨by simp, by simp⟩
  have left : (none : Option ℝ) = none → ∃ a ∈ [(-1 : ℝ), 0, 1], 0 < -a := fun _ => ⟨-1, by simp⟩
  have right : (none : Option ℝ) = none → ∃ a ∈ [(-1 : ℝ), 0, 1], -a < 0 := fun _ => ⟨1, by simp⟩
  obtain ⟨H, e, -⟩ := C82_setup ⟨none, none⟩ _ _ c [-1, 0, 1] (by simp) (by norm_num) mem left right
    (by
      intro a ha hm
      simp only [List.mem_cons, List.not_mem_nil, or_false] at ha
      rcases ha with rfl | rfl | rfl
      · norm_num
      · rcases hm with hm | hm
        · have := hm (-1) (by simp); norm_num at this
        · have := hm 1 (by simp); norm_num at this
      · norm_num)
  have r := Reach.setup (D := ⟨none, none⟩) [-1, 0, 1] H (by simp) mem left right e
  obtain ⟨V, hn, hxs⟩ := setup_valid (D := ⟨none, none⟩) c (by simp) mem left right e
  rw [hs] at hxs
  have x0 : H.xs 0 = -1 := by rw [hxs]; rfl
  have x1 : H.xs 1 = 0 := by rw [hxs]; rfl
  have x2 : H.xs 2 = 1 := by rw [hxs]; rfl
  have hn3 : H.n = 3 := by simpa using hn
  refine ⟨H, by simpa using r, hn3, x0, x1, x2, ?_, ?_⟩
  · rw [V.base.core.z 0 (by omega), x0, x1]
    norm_num [ARS.mt, meet]
  · rw [V.base.core.z 1 (by omega), x1, x2]
    norm_num [ARS.mt, meet]

end C82aux

/-- **The lower hull is not below the function.**  For a normal density with the three abscissae
-1, 0 and 1, the lower hull evaluated at 1/4 is 1/8, above the function, which is negative
there. -/
theorem C82_lower_fails :
    ∃ (h hp : ℝ → ℝ) (X : Finset ℝ) (H : Hull), LogConcave (interval none none) h hp ∧
      Reach ⟨none, none⟩ h hp X H ∧ ∃ x l, (evaluateHull x H).2 = some l ∧ h x < l := by
  obtain ⟨H, r, hn, x0, x1, x2, z0, z1⟩ := C82aux.gauss3
  refine ⟨_, _, _, H, C82aux.gauss_conc none none, r, 1 / 4, 1 / 8, ?_, by norm_num⟩
  have C := (C82aux.valid (D := ⟨none, none⟩) (C82aux.gauss_conc none none) r).base.core
  have ei : evalIndex (1 / 4) H = 0 := by
    rw [evalIndex, z0, hn, if_neg (by norm_num), if_neg (by norm_num)]
    simp only [scan, z1]
    norm_num
  simp only [evaluateHull, ei, hn, x0, x1, x2, C.hx 0 (by omega), C.hx 1 (by omega)]
  rw [if_neg (by norm_num)]
  norm_num [chord]

/-- **Three abscissae: wrong distribution.**  For a normal density with the three abscissae -1, 0
and 1, the interval between 1/2 and 1 is less likely than its mirror image, although the density
is symmetric: right of the first intersection of tangents the function is compared to the tangent
of the wrong abscissa. -/
theorem C82_distribution_fails :
    ∃ (h hp : ℝ → ℝ) (X : Finset ℝ) (H : Hull), LogConcave (interval none none) h hp ∧
      Reach ⟨none, none⟩ h hp X H ∧ (∀ x, h (-x) = h x) ∧
      yield ⟨none, none⟩ h H (Ioo (1 / 2) 1) < yield ⟨none, none⟩ h H (Ioo (-1) (-1 / 2)) := by
  obtain ⟨H, r, hn, x0, x1, x2, z0, z1⟩ := C82aux.gauss3
  refine ⟨_, _, _, H, C82aux.gauss_conc none none, r, fun x => by ring, ?_⟩
  have V := C82aux.valid (D := ⟨none, none⟩) (C82aux.gauss_conc none none) r
  have C := V.base.core
  have hcu := V.cu_pos
  have hmem : ∀ E : Set ℝ, E ⊆ Domain.set ⟨none, none⟩ := fun E x _ => ⟨by simp, by simp⟩
  have toReal : ∀ (a b : ℝ) (f : ℝ → ℝ), a ≤ b → Continuous f → (∀ x, 0 ≤ f x) →
      ∫⁻ x in Ioo a b, ENNReal.ofReal (f x) = ENNReal.ofReal (∫ x in a..b, f x) := by
    intro a b f hab hf h0
    rw [intervalIntegral.integral_of_le hab, integral_Ioc_eq_integral_Ioo,
      ofReal_integral_eq_lintegral_ofReal]
    · exact (hf.integrableOn_Icc).mono_set Ioo_subset_Icc_self
    · exact Filter.Eventually.of_forall h0
  have hR : yield ⟨none, none⟩ (fun x => -x ^ 2 / 2) H (Ioo (1 / 2) 1)
      = ENNReal.ofReal (∫ x in (1 / 2 : ℝ)..1,
          Real.exp (1 / 2 - x) / H.cu * Real.exp (-x ^ 2 / 2)) := by
    rw [← toReal _ _ _ (by norm_num) (by fun_prop) (fun x => by positivity), yield,
      C82aux.transfer V (hmem _) measurableSet_Ioo]
    refine setLIntegral_congr_fun measurableSet_Ioo fun x hx => ?_
    obtain ⟨hx1, hx2⟩ := hx
    have ei : evalIndex x H = 1 := by
      rw [evalIndex, z0, hn, if_neg (by linarith), if_neg (by norm_num)]
      simp [scan, z1, one_div] at *
      simp [hx1]
    have e1 : (evaluateHull x H).1 = 0 := by
      rw [eval_fst V, ei, x1]
      simp [tan]
    have e2 : envelope (fun x : ℝ => -x ^ 2 / 2) (fun x => -x) {-1, 0, 1} x = 1 / 2 - x := by
      rw [V.pts, C.env_eq V.base.conc (j := 2) (by omega) (fun _ => by
        rw [show 2 - 1 = 1 from rfl, z1]; exact hx1.le) (by omega), x2]
      simp only [tan]
      ring
    rw [C82aux.acceptance_eq e1 (by nlinarith) ?_, e2, ← ENNReal.ofReal_mul (by positivity),
      sub_zero]
    intro l hl
    simp only [evaluateHull, ei, hn, x0, x1, x2, C.hx 1 (by omega), C.hx 2 (by omega)] at hl
    rw [if_neg (by push Not; constructor <;> linarith), if_neg (by norm_num), if_neg (by norm_num),
      if_pos hx2] at hl
    rw [← Option.some.inj hl, chord]
    nlinarith
  have hL : yield ⟨none, none⟩ (fun x => -x ^ 2 / 2) H (Ioo (-1) (-1 / 2))
      = ENNReal.ofReal (∫ x in (1 / 2 : ℝ)..1, 1 / H.cu * Real.exp (-x ^ 2 / 2)) := by
    have e0 : ∫ x in (1 / 2 : ℝ)..1, 1 / H.cu * Real.exp (-x ^ 2 / 2)
        = ∫ x in (-1 : ℝ)..(-1 / 2), 1 / H.cu * Real.exp (-x ^ 2 / 2) := by
      have := intervalIntegral.integral_comp_neg (a := -1) (b := -1 / 2)
        (fun x : ℝ => 1 / H.cu * Real.exp (-x ^ 2 / 2))
      rw [show -(-1 / 2 : ℝ) = 1 / 2 by norm_num, neg_neg] at this
      rw [← this]
      refine intervalIntegral.integral_congr fun x _ => ?_
      simp
    rw [e0, ← toReal _ _ _ (by norm_num) (by fun_prop) (fun x => by positivity), yield,
      C82aux.transfer V (hmem _) measurableSet_Ioo]
    refine setLIntegral_congr_fun measurableSet_Ioo fun x hx => ?_
    obtain ⟨hx1, hx2⟩ := hx
    have ei : evalIndex x H = 0 := by
      rw [evalIndex, z0, if_pos hx2]
    rw [C82aux.acceptance_eq (eval_first V (by rw [z0]; exact hx2))
      (C82_upper ⟨none, none⟩ _ _ (C82aux.gauss_conc none none) _ H r x (hmem _ (mem_univ x))).1 ?_,
      ← ENNReal.ofReal_mul (by positivity), div_mul_eq_mul_div, ← Real.exp_add]
    · congr 1
      rw [one_div, div_eq_inv_mul]
      congr 2
      ring
    · intro l hl
      simp only [evaluateHull, ei, hn, x0, x1, x2, C.hx 0 (by omega), C.hx 1 (by omega)] at hl
      rw [if_neg (by push Not; constructor <;> linarith), if_pos trivial] at hl
      rw [← Option.some.inj hl, chord]
      nlinarith
  rw [hR, hL]
  have hpos : 0 < ∫ x in (1 / 2 : ℝ)..1, 1 / H.cu * Real.exp (-x ^ 2 / 2) :=
    intervalIntegral.intervalIntegral_pos_of_pos
      ((by fun_prop : Continuous _).intervalIntegrable _ _) (fun x => by positivity) (by norm_num)
  rw [ENNReal.ofReal_lt_ofReal_iff hpos]
  refine intervalIntegral.integral_lt_integral_of_continuousOn_of_le_of_exists_lt (by norm_num)
    (by fun_prop) (by fun_prop) (fun x hx => ?_) ⟨1, by norm_num, ?_⟩
  · have : Real.exp (1 / 2 - x) ≤ 1 := Real.exp_le_one_iff.2 (by linarith [hx.1])
    gcongr
  · have : Real.exp (1 / 2 - 1) < 1 := Real.exp_lt_one_iff.2 (by norm_num)
    gcongr


/-! ### Concrete cases -/

/-- A normal density on the whole line with starting abscissae -1 and 1 meets the hypotheses of
`C82_setup`, so hulls exist; so does every hull hypothesis of the theorems above. -/
example : ∃ H, Reach ⟨none, none⟩ (fun x => -x ^ 2 / 2) (fun x => -x) {-1, 1} H := by
  obtain ⟨H, -, r⟩ := C82aux.pair_setup (D := ⟨none, none⟩) (C82aux.gauss_conc none none)
    (a := -1) (b := 1) (by norm_num) ⟨by simp, by simp⟩ ⟨by simp, by simp⟩ (by norm_num)
    (by norm_num) (by norm_num)
  exact ⟨H, r⟩

/-- An updated hull: the point 1/2 is added to the abscissae -1 and 1. -/
example : ∃ H, Reach ⟨none, none⟩ (fun x => -x ^ 2 / 2) (fun x => -x) {1 / 2, -1, 1} H := by
  obtain ⟨H, -, r⟩ := C82aux.pair_setup (D := ⟨none, none⟩) (C82aux.gauss_conc none none)
    (a := -1) (b := 1) (by norm_num) ⟨by simp, by simp⟩ ⟨by simp, by simp⟩ (by norm_num)
    (by norm_num) (by norm_num)
  obtain ⟨H', e⟩ := (C82_update ⟨none, none⟩ _ _ (C82aux.gauss_conc none none) _ H r (1 / 2)
    ⟨by simp, by simp⟩).2.1 (by norm_num) (by norm_num)
  exact ⟨H', Reach.update _ H H' (1 / 2) r ⟨by simp, by simp⟩ e⟩

/-- A call of `ars` that returns a sample (`C82_ars`). -/
example : ∃ (us : ℕ → ℝ) (x : ℝ) (H : Hull) (nup : ℕ), (∀ i, us i ∈ Ioo (0 : ℝ) 1) ∧
    ars ⟨none, none⟩ [-1, 1] (fun x => -x ^ 2 / 2) (fun x => -x) 1 0 1 us = some ([x], H, nup) := by
  obtain ⟨H, e, -⟩ := C82aux.pair_setup (D := ⟨none, none⟩) (C82aux.gauss_conc none none)
    (a := -1) (b := 1) (by norm_num) ⟨by simp, by simp⟩ ⟨by simp, by simp⟩ (by norm_num)
    (by norm_num) (by norm_num)
  set x := sampleHull H ⟨none, none⟩ (1 / 2) with hx
  set p := Real.exp ((fun x : ℝ => -x ^ 2 / 2) x - (evaluateHull x H).1) with hp
  have hp0 : 0 < p := Real.exp_pos _
  refine ⟨fun i => if i = 1 then min (p / 2) (1 / 2) else 1 / 2, x, H, 0, fun i => ?_, ?_⟩
  · dsimp only
    split_ifs
    · exact ⟨by positivity, lt_of_le_of_lt (min_le_right _ _) (by norm_num)⟩
    · norm_num
  · have hacc : accepts (fun x : ℝ => -x ^ 2 / 2) H x (min (p / 2) (1 / 2)) :=
      Or.inr (lt_of_le_of_lt (min_le_left _ _) (by rw [← hp]; linarith))
    have hnext : nextHull ⟨none, none⟩ (fun x : ℝ => -x ^ 2 / 2) (fun x => -x) 0 H 0 x
        (min (p / 2) (1 / 2)) = some (H, 0) := by simp [nextHull]
    have e1 : ∀ us : ℕ → ℝ, us 0 = 1 / 2 → us 1 = min (p / 2) (1 / 2) →
        sampleone ⟨none, none⟩ (fun x : ℝ => -x ^ 2 / 2) (fun x => -x) 0 1 H 0 us
          = some (x, H, 0, fun i => us (i + 2)) := by
      intro us h0 h1
      simp only [sampleone, h0, h1, ← hx, hnext]
      rw [if_pos (by rw [h0, h1]; exact hacc)]
    simp only [ars, e, arsLoop]
    rw [e1 _ (by simp) (by simp)]
    rfl

/-- `C82_streamdf` with mean 2 and unit dispersion, `C82_diskdf_partial` with the default scale
length. -/
example : √(1 : ℝ) < 2 ∧ (0 : ℝ) < 1 / 3 ∧ (1 / 3 : ℝ) < 2 ∧ (1 / 3 : ℝ) ≠ 0.05 := by
  rw [Real.sqrt_one]; norm_num

/-- The events of `C82_distribution_partial`: the positive half line. -/
example : MeasurableSet (Ioi (0 : ℝ)) ∧ Ioi (0 : ℝ) ⊆ interval none none ∧
    ({-1, 1} : Finset ℝ).card = 2 :=
  ⟨measurableSet_Ioi, fun _ _ => ⟨by simp, by simp⟩, by norm_num⟩

end Verif
